import Verif.Spec.Out
import Verif.Lemmas.NarRefs
import Verif.Props.Out
import Verif.Props.NarWriterExact

/-!
# Computing something while dumping: hashes and references (C127)
-/

namespace Verif.Props
open Verif.Nar Verif.GoLib Verif.Spec Verif.Wire Verif.References Verif.Storepath

theorem All2.refl {α : Type} {R : α → α → Prop} {l : List α} (h : ∀ x ∈ l, R x x) : All2 R l l := by
  induction l with
  | nil => exact .nil
  | cons a l ih => exact .cons (h a (by simp)) (ih fun x hx => h x (by simp [hx]))

/-- C127: an `io.Writer` that accepts everything and whose state depends only on the bytes so far, such as a hash function, a
`ReferenceScanner` or both under an `io.MultiWriter`: after a dump its state is that for all the bytes of the dump at once. -/
theorem C127_fold {D : Out.Dev} (f : D.S → Bytes → D.S) (hw : ∀ st p, D.write st p = ((p.length, none), f st p))
    (h0 : ∀ st, f st [] = st) (hf : ∀ st a b, f (f st a) b = f st (a ++ b))
    (st : D.S) (filter : Option Filter) (path : Bytes) (root : FNode) :
    (Out.dumpPathFilter filter path root (⟨st, []⟩ : Out.GSink D)).1 = (dumpPathFilter filter path root ⟨[], none⟩).1 ∧
    (Out.dumpPathFilter filter path root (⟨st, []⟩ : Out.GSink D)).2.st =
      f st (dumpPathFilter filter path root ⟨[], none⟩).2.out := by
  have hc : Out.Contract (D := D) (fun w => w.st = f st w.out) (fun _ => False) (fun _ => True) := by
    refine ⟨fun w p h => ?_, fun w p _ _ => ?_, fun w p _ h => ?_, fun _ _ _ _ _ => trivial⟩
    · simp only [Out.GSink.write, hw, List.take_length]
      rw [h, hf]
    · simp only [Out.GSink.write, hw]
    · simp only [Out.GSink.write, hw] at h
      exact h rfl
  obtain ⟨hP, h⟩ := Out.dump_sim hc filter path root ⟨st, []⟩ (h0 st).symm rfl trivial
  rcases h with ⟨h1, h2, -⟩ | ⟨_, _, _, h, _⟩
  · exact ⟨h1, by rw [hP, h2]⟩
  · exact absurd h id

theorem multiWrite_spec {D : Out.Dev} (R : Out.GSink D → Out.GSink D → Prop) (hR : ∀ w0 w p, R w0 w → R w0 (w.write p).2) (p : Bytes) :
    ∀ (ws0 ws : List (Out.GSink D)), (All2 R ws0 ws → All2 R ws0 (Out.multiWrite ws p).2) ∧
      ((Out.multiWrite ws p).1.2 = none → (Out.multiWrite ws p).1.1 = p.length ∧
        ∀ o, (∀ w ∈ ws, w.out = o) → ∀ w ∈ (Out.multiWrite ws p).2, w.out = o ++ p)
  | _, [] => ⟨fun h => h, fun _ => ⟨rfl, fun _ _ _ h => (nomatch h)⟩⟩
  | ws0, w :: ws => by
    obtain ⟨-, i3⟩ := multiWrite_spec R hR p [] ws
    have ho := Out.out_write w p
    have hq := fun w0 => hR w0 w p
    rw [Out.multiWrite]
    rcases h : w.write p with ⟨⟨n, _ | e⟩, w'⟩ <;> rw [h] at ho hq <;> simp only [] at ho hq ⊢
    · by_cases hn : n ≠ p.length
      · rw [if_pos hn]
        refine ⟨fun hw => ?_, fun hx => by simp at hx⟩
        cases hw with
        | cons h1 h2 => exact .cons (hq _ h1) h2
      · rw [if_neg hn]
        have hn : n = p.length := Decidable.not_not.1 hn
        refine ⟨fun hw => ?_, fun hx => ⟨(i3 hx).1, fun o hw x hmem => ?_⟩⟩
        · cases hw with
          | cons h1 h2 => exact .cons (hq _ h1) ((multiWrite_spec R hR p _ ws).1 h2)
        · rcases List.mem_cons.1 hmem with rfl | hmem
          · rw [ho, hw w (by simp), hn, List.take_length]
          · exact (i3 hx).2 o (fun y hy => hw y (by simp [hy])) x hmem
    · refine ⟨fun hw => ?_, fun hx => by simp at hx⟩
      cases hw with
      | cons h1 h2 => exact .cons (hq _ h1) h2

/-- C127: a dump to an `io.MultiWriter` of any writers. If it returns nil, then every one of the writers has accepted the whole archive,
whatever the writers do (fail, accept less than they were given, ...). `R` relates a writer at the beginning to the same writer later: anything that
`Write` keeps, such as the relation between the state of a hash function and the bytes it has got since then. -/
theorem C127_multi {D : Out.Dev} (R : Out.GSink D → Out.GSink D → Prop) (hR : ∀ w0 w p, R w0 w → R w0 (w.write p).2)
    (ws : List (Out.GSink D)) (hws : ∀ w ∈ ws, w.out = [] ∧ R w w) (filter : Option Filter) (path : Bytes) (root : FNode)
    (h : (Out.dumpPathFilter filter path root (⟨ws, []⟩ : Out.GSink (Out.multiDev D))).1 = .ok ()) :
    (dumpPathFilter filter path root ⟨[], none⟩).1 = .ok () ∧
    (∀ w ∈ (Out.dumpPathFilter filter path root (⟨ws, []⟩ : Out.GSink (Out.multiDev D))).2.st,
      w.out = (dumpPathFilter filter path root ⟨[], none⟩).2.out) ∧
    All2 R ws (Out.dumpPathFilter filter path root (⟨ws, []⟩ : Out.GSink (Out.multiDev D))).2.st := by
  have hc : Out.Contract (D := Out.multiDev D) (fun w => All2 R ws w.st) (fun _ => True) (fun w => ∀ x ∈ w.st, x.out = w.out) := by
    refine ⟨fun w p hp => ?_, fun w p _ hn => ?_, fun _ _ _ _ => trivial, fun w p _ hC hn => ?_⟩
    · exact (multiWrite_spec R hR p ws w.st).1 hp
    · exact ((multiWrite_spec R hR p ws w.st).2 hn).1
    · obtain ⟨j1, j2⟩ := (multiWrite_spec R hR p ws w.st).2 hn
      intro x hx
      rw [Out.out_write w p, show (w.write p).1.1 = p.length from j1, List.take_length]
      exact j2 w.out hC x hx
  obtain ⟨hP, hd⟩ := Out.dump_sim hc filter path root ⟨ws, []⟩ (All2.refl fun x hx => (hws x hx).2) rfl (fun x hx => (hws x hx).1)
  rcases hd with ⟨h1, h2, h3⟩ | ⟨⟨e, he⟩ | ⟨_, he⟩, _⟩
  · exact ⟨h1 ▸ h, fun w hw => by rw [h3 h w hw, h2], hP⟩
  · rw [he] at h; cases h
  · exact absurd h he

/-- C127, the usual case: a file and something that is computed from the bytes (a hash, the references), under an `io.MultiWriter`. If the
dump returns nil, the file has got the archive, and what was computed is that of the archive. -/
theorem C127_tee {D K : Out.Dev} (f : K.S → Bytes → K.S) (hw : ∀ st p, K.write st p = ((p.length, none), f st p))
    (h0 : ∀ st, f st [] = st) (hf : ∀ st a b, f (f st a) b = f st (a ++ b)) (st : D.S) (k : K.S)
    (filter : Option Filter) (path : Bytes) (root : FNode) (hok : root.Ok NameWr)
    (r : Call Unit × Out.GSink (Out.multiDev (Out.sumDev (twoDevs D K))))
    (hr : r = Out.dumpPathFilter filter path root ⟨[⟨⟨true, st⟩, []⟩, ⟨⟨false, k⟩, []⟩], []⟩) (h : r.1 = .ok ()) :
    ∃ t st', root.prune (keeps filter) path b!"/" = some t ∧
      r.2.st = [⟨⟨true, st'⟩, t.nar⟩, ⟨⟨false, f k t.nar⟩, t.nar⟩] := by
  subst hr
  let R : Out.GSink (Out.sumDev (twoDevs D K)) → Out.GSink (Out.sumDev (twoDevs D K)) → Prop :=
    fun w0 w => w.st.1 = w0.st.1 ∧ (∀ s : K.S, w0.st = ⟨false, k⟩ → w.st = ⟨false, s⟩ → s = f k w.out)
  have hR : ∀ w0 w p, R w0 w → R w0 (w.write p).2 := by
    intro w0 w p hp
    obtain ⟨⟨i, s⟩, o⟩ := w
    obtain ⟨⟨i0, s0⟩, o0⟩ := w0
    obtain ⟨rfl, hp⟩ := hp
    refine ⟨rfl, fun u e1 e2 => ?_⟩
    cases e1
    have hs : s = f k o := hp s rfl rfl
    change (⟨false, (K.write s p).2⟩ : Sigma fun i => (twoDevs D K i).S) = ⟨false, u⟩ at e2
    change u = f k (o ++ p.take (K.write s p).1.1)
    injection e2 with _ e2
    rw [← e2, hw s p, hs]
    simp only [List.take_length, hf]
  have hws : ∀ w ∈ [(⟨⟨true, st⟩, []⟩ : Out.GSink (Out.sumDev (twoDevs D K))), ⟨⟨false, k⟩, []⟩], w.out = [] ∧ R w w := by
    intro w hmem
    simp only [List.mem_cons, List.not_mem_nil, or_false] at hmem
    rcases hmem with rfl | rfl
    · exact ⟨rfl, rfl, fun s e => by cases e⟩
    · refine ⟨rfl, rfl, fun s _ e => ?_⟩
      cases e
      exact (h0 k).symm
  obtain ⟨h1, h2, h3⟩ := C127_multi R hR _ hws filter path root h
  obtain ⟨t, ht, ho⟩ := (C35_dump_filter_partial filter path root hok).2 h1
  rw [ho] at h2
  generalize (Out.dumpPathFilter filter path root (⟨[⟨⟨true, st⟩, []⟩, ⟨⟨false, k⟩, []⟩], []⟩ : Out.GSink (Out.multiDev (Out.sumDev (twoDevs D K))))).2.st = L at h2 h3
  cases h3 with
  | cons a1 a2 =>
    cases a2 with
    | cons b1 b2 =>
      cases b2
      rename_i x y
      obtain ⟨⟨i, s⟩, o⟩ := x
      obtain ⟨⟨j, u⟩, q⟩ := y
      obtain ⟨rfl, -⟩ := a1
      obtain ⟨rfl, b1⟩ := b1
      have e1 := h2 _ (List.Mem.head _)
      have e2 := h2 _ (.tail _ (List.Mem.head _))
      have e3 := b1 u rfl rfl
      simp only [] at e1 e2 e3
      subst e1 e2 e3
      exact ⟨t, s, ht, rfl⟩

theorem scanDump_eq (r : Scanner) (filter : Option Filter) (path : Bytes) (root : FNode) :
    scanDump r filter path root =
      ((dumpPathFilter filter path root ⟨[], none⟩).1, r.write (dumpPathFilter filter path root ⟨[], none⟩).2.out) := by
  obtain ⟨h1, h2⟩ := C127_fold (D := scanDev) Scanner.write (fun _ _ => rfl) (fun _ => rfl)
    (fun st a b => (List.foldl_append (f := Scanner.byte)).symm) r filter path root
  exact Prod.ext h1 h2

theorem refs_nar (ps : List Bytes) (r : Scanner) (h : newReferenceScanner ps = .ok r) (t : Tree) (ht : t.All SmallName SmallNode)
    (order : List Bytes) (ho : order.Perm (r.writes [t.nar]).hits.keys) (p : Bytes) :
    p ∈ (r.writes [t.nar]).references order ↔ LastWith p ps ∧ ∃ en ∈ t.entriesAt b!"/", InEntry (hashPart p) en := by
  rw [C47_complete_partial ps r h [t.nar] order ho p, ← aligned_nar t ht, List.flatten_cons, List.flatten_nil, List.append_nil]

/-- C127: a tree is dumped into a `ReferenceScanner`. The references are exactly the candidates (for equal hash parts the last one)
whose hash part occurs in the path, the contents or the link target of an entry of the tree; nothing arises from the format of the
archive, and nothing is lost by the pieces in which it is written. -/
theorem C127_references (ps : List Bytes) (r : Scanner) (h : newReferenceScanner ps = .ok r)
    (filter : Option Filter) (path : Bytes) (root : FNode) (hok : root.Ok NameOk)
    (final : Scanner) (hd : scanDump r filter path root = (.ok (), final))
    (hsmall : ∀ t, root.prune (keeps filter) path b!"/" = some t → t.All SmallName SmallNode)
    (order : List Bytes) (ho : order.Perm final.hits.keys) :
    ∃ t, root.prune (keeps filter) path b!"/" = some t ∧
      ∀ p, p ∈ final.references order ↔ LastWith p ps ∧ ∃ en ∈ t.entriesAt b!"/", InEntry (hashPart p) en := by
  rw [scanDump_eq, Prod.mk.injEq] at hd
  obtain ⟨hd, hf⟩ := hd
  obtain ⟨t, ht, he⟩ := (C35_exact filter path root hok).2 hd
  have e : r.writes [t.nar] = r.write t.nar := by simp only [Scanner.writes, List.foldl]
  rw [he, ← e] at hf
  subst hf
  exact ⟨t, ht, refs_nar ps r h t (hsmall t ht) order ho⟩

/-- C127, the usual case: a store path that is written out somewhere in the tree (in a file, a link or a path) is found. -/
theorem C127_found (ps : List Bytes) (r : Scanner) (h : newReferenceScanner ps = .ok r)
    (filter : Option Filter) (path : Bytes) (root : FNode) (hok : root.Ok NameOk)
    (final : Scanner) (hd : scanDump r filter path root = (.ok (), final)) (t : Tree)
    (ht : root.prune (keeps filter) path b!"/" = some t) (hsmall : t.All SmallName SmallNode)
    (order : List Bytes) (ho : order.Perm final.hits.keys) (p : Bytes) (hp : LastWith p ps) (hh : HashPart (hashPart p))
    (en : Entry) (hen : en ∈ t.entriesAt b!"/") (x : Bytes) (hx : x = en.path ∨ x = en.contents ∨ x = en.target)
    (a b : Bytes) (hxe : x = a ++ b!"/nix/store/" ++ hashPart p ++ b) : p ∈ final.references order := by
  obtain ⟨t', ht', hr⟩ := C127_references ps r h filter path root hok final hd
    (fun t' h' => by rw [ht] at h'; exact Option.some.inj h' ▸ hsmall) order ho
  rw [ht] at ht'
  cases Option.some.inj ht'
  have hal : Aligned (hashPart p) x := by
    refine ⟨a ++ b!"/nix/store/", b, hxe, hh, ?_⟩
    have e : a ++ b!"/nix/store/" = (a ++ b!"/nix/store") ++ 47 :: [] := by simp
    rw [e, run_cut _ _ _ (by unfold NonDigit; decide)]
    rfl
  refine (hr p).2 ⟨hp, en, hen, ?_⟩
  rcases hx with rfl | rfl | rfl
  · exact .inl hal
  · exact .inr (.inl hal)
  · exact .inr (.inr hal)

/-- a script that uses the first of `sampleCands` -/
def refTree : Tree := .directory (.cons b!"bin" (.directory (.cons b!"run" (.regular true
  b!"#!/nix/store/knn6wc1a89c47yb70qwv56rmxylia6wx-hello-2.12/bin/sh") .nil)) (.cons b!"c4pcgriqgiwz8vxrjxg7p38q3y7w3ni" (.symlink b!"3-go") .nil))

/-- The hypotheses of the theorems hold for `refTree`, and exactly the first candidate is found: the hash part of the second is not there, though
the bytes of a name and of a link target together would give it. -/
example : ∃ r, newReferenceScanner sampleCands = .ok r ∧ (scanDump r none b!"/x" (onDisk refTree)).1 = .ok () ∧
    (onDisk refTree).Ok NameOk ∧ refTree.All SmallName SmallNode ∧
    let final := (scanDump r none b!"/x" (onDisk refTree)).2
    final.references final.hits.keys = [b!"/nix/store/knn6wc1a89c47yb70qwv56rmxylia6wx-hello-2.12"] := by
  refine ⟨_, rfl, ?_, ?_, ?_, ?_⟩
  · decide +kernel
  · simp only [refTree, onDisk, onDisk', FNode.Ok, FEntries.Ok, FEntries.names]
    decide
  · simp only [refTree, Tree.All, Entries.All, SmallName, SmallNode, Entries.names]
    decide
  · decide +kernel

/-- The hypotheses of `C127_tee` hold for a file without limit and the scanner; on a device that takes no more than 100 bytes the dump to both fails. -/
example : ∃ r, newReferenceScanner sampleCands = .ok r ∧
    (Out.dumpPathFilter none b!"/x" (onDisk refTree) (⟨[⟨⟨true, ()⟩, []⟩, ⟨⟨false, r⟩, []⟩], []⟩ :
      Out.GSink (Out.multiDev (Out.sumDev (twoDevs ⟨Unit, fun _ p => ((p.length, none), ())⟩ scanDev))))).1 = .ok () ∧
    (Out.dumpPathFilter none b!"/x" (onDisk refTree) (⟨[⟨⟨true, (100 : Nat)⟩, []⟩, ⟨⟨false, r⟩, []⟩], []⟩ :
      Out.GSink (Out.multiDev (Out.sumDev (twoDevs ⟨Nat, fun n p => ((min n p.length, none), n - p.length)⟩ scanDev))))).1 ≠ .ok () := by
  refine ⟨_, rfl, ?_, ?_⟩ <;> decide +kernel

end Verif.Props
