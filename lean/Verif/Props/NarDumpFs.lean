import Verif.Props.NarWriterExact
import Verif.Props.NarWriterCalls
import Verif.Spec.NarDumpFs

/-!
# Dumping a file system that changes (C144)
-/

namespace Verif.Props
open Verif Verif.Nar Verif.GoLib Verif.Spec Verif.Wire

/-! ## Paths -/

/-- a component of a clean path -/
def Comp (c : Bytes) : Prop := c ≠ [] ∧ c ≠ b!"." ∧ (47 : UInt8) ∉ c

instance (c : Bytes) : Decidable (Comp c) := by unfold Comp; infer_instance

theorem cleanStep_comp {r : Bool} {stack : List Bytes} {c : Bytes} (hs : ∀ x ∈ stack, Comp x)
    (hc : (47 : UInt8) ∉ c) : ∀ x ∈ cleanStep r stack c, Comp x := by
  unfold cleanStep
  split
  · exact hs
  · rename_i h1
    split
    · split
      · split
        · simp
        · intro x hx; rw [List.mem_singleton.1 hx]; decide
      · rename_i top rest
        split
        · intro x hx
          rcases List.mem_cons.1 hx with hx | hx
          · rw [hx]; decide
          · exact hs x hx
        · exact fun x hx => hs x (List.mem_cons_of_mem _ hx)
    · intro x hx
      rcases List.mem_cons.1 hx with hx | hx
      · rw [hx]; exact ⟨fun h => h1 (.inl h), fun h => h1 (.inr h), hc⟩
      · exact hs x hx

theorem foldl_comp {r : Bool} (l : List Bytes) : ∀ (stack : List Bytes), (∀ x ∈ stack, Comp x) →
    (∀ x ∈ l, (47 : UInt8) ∉ x) → ∀ x ∈ l.foldl (cleanStep r) stack, Comp x := by
  induction l with
  | nil => intro stack hs _; exact hs
  | cons c l ih =>
    intro stack hs hl
    exact ih _ (cleanStep_comp hs (hl c (by simp))) fun x hx => hl x (List.mem_cons_of_mem _ hx)

theorem cleanComps_comp (p : Bytes) : ∀ x ∈ cleanComps p, Comp x := by
  intro x hx
  unfold cleanComps at hx
  exact foldl_comp _ [] (by simp) (fun x hx => splitByte_no_sep _ _ x hx) x (List.mem_reverse.1 hx)

theorem cleanComps_join {a : Bytes} (ha : a ≠ []) {cs : List Bytes} (h : ∀ x ∈ cs, Good x) :
    cleanComps (a ++ b!"/" ++ absPath cs) = cleanComps a ++ cs := by
  have hh : (a ++ b!"/" ++ absPath cs).head? = a.head? := by
    cases a with
    | nil => exact absurd rfl ha
    | cons x a => rfl
  have hsplit : splitByte (a ++ b!"/" ++ absPath cs) 47 = splitByte a 47 ++ splitByte (absPath cs) 47 := by
    have e : a ++ b!"/" ++ absPath cs = join (splitByte a 47 ++ splitByte (absPath cs) 47) [47] := by
      rw [join_append (splitByte_ne_nil _ _) (splitByte_ne_nil _ _), join_splitByte, join_splitByte]
    rw [e, splitByte_join (by simp [splitByte_ne_nil])]
    intro x hx
    rcases List.mem_append.1 hx with hx | hx <;> exact splitByte_no_sep _ _ x hx
  unfold cleanComps
  rw [hh, hsplit, List.foldl_append, splitByte_absPath h, List.foldl_cons]
  have e0 : ∀ r (st : List Bytes), cleanStep r st [] = st := fun r st => by simp [cleanStep]
  rw [e0]
  split
  · rename_i e; subst e; simp [e0]
  · rw [foldl_cleanStep_of_good h]; simp

/-- The path that is passed to the system calls for the node `sub`. -/
theorem pathJoin_sub (a : Bytes) {cs : List Bytes} (h : ∀ x ∈ cs, Good x) : pathJoin a (absPath cs) =
    if a = [] then absPath cs
    else if a.head? = some 47 then absPath (cleanComps a ++ cs)
    else if cleanComps a ++ cs = [] then b!"." else join (cleanComps a ++ cs) b!"/" := by
  unfold pathJoin
  rw [if_neg (by simp [absPath])]
  split
  · rename_i e; simp [clean_absPath h]
  · rename_i e
    rw [if_neg (by simp [absPath])]
    unfold clean
    have hh : (a ++ b!"/" ++ absPath cs).head? = a.head? := by
      cases a with
      | nil => exact absurd rfl e
      | cons x a => rfl
    rw [hh, cleanComps_join e h]
    rfl

theorem joinComps_ne {cs : List Bytes} (h : ∀ x ∈ cs, Comp x) (hne : cs ≠ []) :
    join cs b!"/" ≠ b!"/" ∧ join cs b!"/" ≠ b!"." := by
  match cs, hne with
  | [x], _ =>
    obtain ⟨h1, h2, h3⟩ := h x (by simp)
    refine ⟨fun e => ?_, fun e => ?_⟩
    · have : x = b!"/" := e
      subst this; exact h3 (by decide)
    · exact h2 e
  | x :: y :: r, _ =>
    obtain ⟨h1, h2, h3⟩ := h x (by simp)
    have e : join (x :: y :: r) b!"/" = x ++ b!"/" ++ join (y :: r) b!"/" := rfl
    rw [e]
    refine ⟨fun e => ?_, fun e => ?_⟩
    · have := congrArg List.length e
      simp at this
      exact h1 (List.length_eq_zero_iff.1 (by omega))
    · have : (47 : UInt8) ∈ b!"." := by rw [← e]; simp
      exact absurd this (by decide)

theorem pathJoin_child (a : Bytes) {cs : List Bytes} {n : Bytes} (h : ∀ x ∈ cs, Good x) (hn : Good n) :
    pathJoin a (absPath (cs ++ [n])) = osChild (pathJoin a (absPath cs)) n := by
  have hg : ∀ x ∈ cs ++ [n], Good x := by
    intro x hx
    rcases List.mem_append.1 hx with hx | hx
    · exact h x hx
    · rw [List.mem_singleton.1 hx]; exact hn
  have rooted : ∀ ds : List Bytes, (∀ x ∈ ds, Good x) → absPath (ds ++ [n]) = osChild (absPath ds) n := by
    intro ds hd
    rw [absPath_snoc ds n hd]
    unfold childPath osChild
    split
    · rfl
    · rw [if_neg]; intro e; simp [absPath] at e
  rw [pathJoin_sub a hg, pathJoin_sub a h]
  split
  · exact rooted cs h
  · split
    · rename_i hr
      rw [← List.append_assoc]
      apply rooted
      intro x hx
      rcases List.mem_append.1 hx with hx | hx
      · exact cleanComps_good a hr x hx
      · exact h x hx
    · rw [if_neg (by simp)]
      by_cases he : cleanComps a ++ cs = []
      · rw [if_pos he, ← List.append_assoc, he]
        rfl
      · rw [if_neg he, ← List.append_assoc, join_append he (by simp)]
        have hc : ∀ x ∈ cleanComps a ++ cs, Comp x := by
          intro x hx
          rcases List.mem_append.1 hx with hx | hx
          · exact cleanComps_comp a x hx
          · have := h x hx; exact ⟨this.1, this.2.1, this.2.2.2⟩
        obtain ⟨h1, h2⟩ := joinComps_ne hc he
        unfold osChild
        rw [if_neg h1, if_neg h2]
        simp [join]

theorem joinComps_length {cs : List Bytes} (h : ∀ x ∈ cs, Comp x) : cs.length ≤ (join cs b!"/").length := by
  induction cs with
  | nil => simp
  | cons x r ih =>
    have hx : 0 < x.length := List.length_pos_iff.2 (h x (by simp)).1
    cases r with
    | nil => simp [join]; omega
    | cons y r =>
      have := ih fun x hx => h x (List.mem_cons_of_mem _ hx)
      have e : join (x :: y :: r) b!"/" = x ++ b!"/" ++ join (y :: r) b!"/" := rfl
      rw [e]
      simp at this ⊢; omega

theorem pathJoin_length (a : Bytes) {cs : List Bytes} (h : ∀ x ∈ cs, Good x) :
    cs.length ≤ (pathJoin a (absPath cs)).length := by
  have hg : ∀ x ∈ cs, Comp x := fun x hx => ⟨(h x hx).1, (h x hx).2.1, (h x hx).2.2.2⟩
  have hc : ∀ x ∈ cleanComps a ++ cs, Comp x := by
    intro x hx
    rcases List.mem_append.1 hx with hx | hx
    · exact cleanComps_comp a x hx
    · exact hg x hx
  have h1 := joinComps_length hc
  have h2 := joinComps_length hg
  simp at h1
  rw [pathJoin_sub a h]
  split
  · simp [absPath]; omega
  · split
    · simp [absPath]; omega
    · split
      · rename_i e; have := congrArg List.length e; simp at this; simp [this]
      · omega

/-! ## What a dump sees -/

/-- The recursion can go as deep as paths can be long. -/
def Enough {S : Type} (fs : FileSys S) (fuel depth : Nat) : Prop :=
  ∃ L, (∀ p s, L < p.length → ∃ e s', fs.lstat p s = (.error e, s')) ∧ 0 < fuel ∧ L + 1 < fuel + depth

/-- Entries that have not been looked at. -/
def unseen : List Bytes → FEntries
  | [] => .nil
  | n :: ns => .cons n (.bad .io) (unseen ns)

theorem unseen_names (ns : List Bytes) : (unseen ns).names = ns := by
  induction ns with
  | nil => rfl
  | cons n ns ih => simp [unseen, FEntries.names, ih]

theorem unseen_ok (ns : List Bytes) (h : ∀ n ∈ ns, NameOk n) : (unseen ns).Ok NameOk := by
  induction ns with
  | nil => simp [unseen, FEntries.Ok]
  | cons n ns ih =>
    unfold unseen FEntries.Ok
    exact ⟨h n (by simp), by simp [FNode.Ok], ih fun x hx => h x (List.mem_cons_of_mem _ hx)⟩

mutual
theorem dumpFs_sees {S : Type} {fs : FileSys S} (hs : fs.Sane) (filter : Option Filter) (path : Bytes) (fuel : Nat)
    (cs : List Bytes) (hcs : ∀ c ∈ cs, Good c) (s s' : S) (w w' : Writer) (c : Call Unit)
    (h : dumpFs fs filter path fuel (absPath cs) s w = (c, w', s')) (hc : c ≠ .block ∨ Enough fs fuel cs.length) :
    ∃ node : FNode, node.Ok NameOk ∧ dumpNode filter path node (absPath cs) w = (c, w') ∧
      (c = .ok () → Seen fs (keeps filter) path s (absPath cs) (node.prune (keeps filter) path (absPath cs)) s') := by
  match fuel with
  | 0 =>
    simp only [dumpFs, Prod.mk.injEq] at h
    rcases hc with hc | ⟨L, _, h0, _⟩
    · exact absurd h.1.symm hc
    · omega
  | fuel + 1 =>
    unfold dumpFs at h
    simp only at h
    rcases hl : fs.lstat (pathJoin path (absPath cs)) s with ⟨k, s1⟩
    rw [hl] at h
    rcases k with e | k
    · simp only [Prod.mk.injEq] at h
      obtain ⟨rfl, rfl, rfl⟩ := h
      exact ⟨.bad e, by simp [FNode.Ok], by simp [dumpNode], nofun⟩
    · cases k with
      | other =>
        simp only [Prod.mk.injEq] at h
        obtain ⟨rfl, rfl, rfl⟩ := h
        exact ⟨.bad (.msg "unknown type"), by simp [FNode.Ok], by simp [dumpNode], nofun⟩
      | symlink =>
        simp only [rejects_keeps] at h
        cases hk : keeps filter (pathJoin path (absPath cs)) typeSymlink with
        | false =>
          simp only [hk, Bool.not_false, if_true, Prod.mk.injEq] at h
          obtain ⟨rfl, rfl, rfl⟩ := h
          refine ⟨.brokenLink .io, by simp [FNode.Ok], by simp [dumpNode, rejects_keeps, hk], fun _ => ?_⟩
          simp only [FNode.prune]
          exact .rejectedLink hl hk
        | true =>
          simp only [hk, Bool.not_true, Bool.false_eq_true, if_false] at h
          rcases hr : fs.readlink (pathJoin path (absPath cs)) s1 with ⟨t, s2⟩
          rw [hr] at h
          rcases t with e | t
          · simp only [Prod.mk.injEq] at h
            obtain ⟨rfl, rfl, rfl⟩ := h
            exact ⟨.brokenLink e, by simp [FNode.Ok], by simp [dumpNode, rejects_keeps, hk], nofun⟩
          · simp only [Prod.mk.injEq] at h
            obtain ⟨rfl, rfl, rfl⟩ := h
            refine ⟨.symlink t, by simpa [FNode.Ok] using hs.target _ _ _ _ hr, by simp [dumpNode, rejects_keeps, hk], fun _ => ?_⟩
            have hk' : keeps filter (pathJoin path (absPath cs)) b!"symlink" = true := hk
            simp only [FNode.prune, hk', if_true]
            exact .link hl hk hr
      | regular x size =>
        simp only [rejects_keeps] at h
        cases hk : keeps filter (pathJoin path (absPath cs)) typeRegular with
        | false =>
          simp only [hk, Bool.not_false, if_true, Prod.mk.injEq] at h
          obtain ⟨rfl, rfl, rfl⟩ := h
          refine ⟨.regular x size [] none, by simp [FNode.Ok], by simp [dumpNode, rejects_keeps, hk], fun _ => ?_⟩
          have hk' : keeps filter (pathJoin path (absPath cs)) b!"regular" = false := hk
          simp only [FNode.prune, hk', Bool.false_eq_true, if_false]
          exact .rejectedFile hl hk
        | true =>
          simp only [hk, Bool.not_true, Bool.false_eq_true, if_false] at h
          rcases hr : fs.read (pathJoin path (absPath cs)) s1 with ⟨⟨ps, fl⟩, s2⟩
          have hsz := hs.size (pathJoin path (absPath cs)) s1
          rw [hr] at hsz
          rcases hx : w.writeHeader ⟨absPath cs, typeRegular, [], size, x⟩ with ⟨r, w1⟩
          rw [hx] at h
          have hd : dumpNode filter path (.regular x size ps fl) (absPath cs) w = (c, w') ∧ (c = .ok () → s2 = s') := by
            unfold dumpNode
            rw [rejects_keeps, hk, hx]
            rcases r with _ | e | _ | _ <;> simp only [hr, Prod.mk.injEq] at h <;> obtain ⟨h1, h2, h3⟩ := h
            · subst h1 h2 h3
              exact ⟨rfl, fun _ => rfl⟩
            · subst h1 h2; exact ⟨rfl, nofun⟩
            · subst h1 h2; exact ⟨rfl, nofun⟩
            · subst h1 h2; exact ⟨rfl, nofun⟩
          have hok : (FNode.regular x size ps fl).Ok NameOk := by simpa [FNode.Ok] using hsz
          refine ⟨.regular x size ps fl, hok, hd.1, fun e => ?_⟩
          subst e
          have hD := dumpable_of_ok filter path _ cs hcs hok _ _ hd.1
          obtain ⟨e1, e2⟩ := hD hk
          subst e1 e2
          have hk' : keeps filter (pathJoin path (absPath cs)) b!"regular" = true := hk
          simp only [FNode.prune, hk', if_true]
          rw [← hd.2 rfl]
          exact .file hl hk hr
      | directory =>
        simp only [rejects_keeps] at h
        cases hk : keeps filter (pathJoin path (absPath cs)) typeDirectory with
        | false =>
          simp only [hk, Bool.not_false, if_true, Prod.mk.injEq] at h
          obtain ⟨rfl, rfl, rfl⟩ := h
          refine ⟨.brokenDirectory .io, by simp [FNode.Ok], by simp [dumpNode, rejects_keeps, hk], fun _ => ?_⟩
          simp only [FNode.prune]
          exact .rejectedDirectory hl hk
        | true =>
          simp only [hk, Bool.not_true, Bool.false_eq_true, if_false] at h
          have hbad : ∀ e, (FNode.brokenDirectory e).Ok NameOk := fun e => by simp [FNode.Ok]
          rcases hx : w.writeHeader ⟨absPath cs, typeDirectory, [], 0, false⟩ with ⟨r, w1⟩
          rw [hx] at h
          rcases r with _ | e | _ | _
          · simp only at h
            rcases hr : fs.readDir (pathJoin path (absPath cs)) s1 with ⟨ns, s2⟩
            rw [hr] at h
            rcases ns with e | ns
            · simp only [Prod.mk.injEq] at h
              obtain ⟨rfl, rfl, rfl⟩ := h
              exact ⟨.brokenDirectory e, hbad e, by simp [dumpNode, rejects_keeps, hk, hx, andThen], nofun⟩
            · simp only at h
              obtain ⟨hsort, hnames⟩ := hs.names _ _ _ _ hr
              have hc' : c ≠ .block ∨ Enough fs fuel (cs.length + 1) := by
                rcases hc with hc | ⟨L, h1, h2, h3⟩
                · exact .inl hc
                · refine .inr ⟨L, h1, ?_, by omega⟩
                  rcases Nat.eq_zero_or_pos fuel with h0 | h0
                  · subst h0
                    have := pathJoin_length path hcs
                    obtain ⟨e, s9, h9⟩ := h1 (pathJoin path (absPath cs)) s (by omega)
                    rw [hl] at h9; cases h9
                  · exact h0
              obtain ⟨es, e1, e2, e3, e4⟩ := dumpNames_sees hs filter path fuel cs hcs ns hnames s2 s' w1 w' c h hc'
              refine ⟨.directory es, by unfold FNode.Ok; exact ⟨by rw [e1]; exact hsort, e2⟩,
                by simp [dumpNode, rejects_keeps, hk, hx, andThen, e3], fun e => ?_⟩
              have hk' : keeps filter (pathJoin path (absPath cs)) b!"directory" = true := hk
              simp only [FNode.prune, hk', if_true]
              exact .directory hl hk hr (e4 e)
          · simp only [Prod.mk.injEq] at h
            obtain ⟨rfl, rfl, rfl⟩ := h
            exact ⟨.brokenDirectory .io, hbad _, by simp [dumpNode, rejects_keeps, hk, hx, andThen], nofun⟩
          · simp only [Prod.mk.injEq] at h
            obtain ⟨rfl, rfl, rfl⟩ := h
            exact ⟨.brokenDirectory .io, hbad _, by simp [dumpNode, rejects_keeps, hk, hx, andThen], nofun⟩
          · simp only [Prod.mk.injEq] at h
            obtain ⟨rfl, rfl, rfl⟩ := h
            exact ⟨.brokenDirectory .io, hbad _, by simp [dumpNode, rejects_keeps, hk, hx, andThen], nofun⟩
termination_by (fuel, 0)
theorem dumpNames_sees {S : Type} {fs : FileSys S} (hs : fs.Sane) (filter : Option Filter) (path : Bytes) (fuel : Nat)
    (cs : List Bytes) (hcs : ∀ c ∈ cs, Good c) (ns : List Bytes) (hns : ∀ n ∈ ns, NameOk n) (s s' : S) (w w' : Writer) (c : Call Unit)
    (h : dumpNames (dumpFs fs filter path fuel) (absPath cs) ns s w = (c, w', s')) (hc : c ≠ .block ∨ Enough fs fuel (cs.length + 1)) :
    ∃ es : FEntries, es.names = ns ∧ es.Ok NameOk ∧ dumpEntries filter path es (absPath cs) w = (c, w') ∧
      (c = .ok () → SeenEntries fs (keeps filter) path s (absPath cs) ns (es.prune (keeps filter) path (absPath cs)) s') := by
  match ns with
  | [] =>
    simp only [dumpNames, Prod.mk.injEq] at h
    obtain ⟨rfl, rfl, rfl⟩ := h
    exact ⟨.nil, rfl, by simp [FEntries.Ok], by simp [dumpEntries], fun _ => by simp only [FEntries.prune]; exact .nil⟩
  | n :: ns =>
    have hn : NameOk n := hns n (by simp)
    have hg := nameOk_good hn
    have hcs' : ∀ c ∈ cs ++ [n], Good c := by
      intro x hx
      rcases List.mem_append.1 hx with hx | hx
      · exact hcs x hx
      · rw [List.mem_singleton.1 hx]; exact hg
    have hns' : ∀ x ∈ ns, NameOk x := fun x hx => hns x (List.mem_cons_of_mem _ hx)
    unfold dumpNames at h
    rw [pathJoin_good hcs hg] at h
    rcases hx : dumpFs fs filter path fuel (absPath (cs ++ [n])) s w with ⟨r, w1, s1⟩
    rw [hx] at h
    have hlen : (cs ++ [n]).length = cs.length + 1 := by simp
    rcases r with _ | e | _ | _
    · simp only at h
      obtain ⟨node, o1, o2, o3⟩ := dumpFs_sees hs filter path fuel (cs ++ [n]) hcs' s s1 w w1 _ hx (.inl (by simp))
      obtain ⟨es, e1, e2, e3, e4⟩ := dumpNames_sees hs filter path fuel cs hcs ns hns' s1 s' w1 w' c h hc
      refine ⟨.cons n node es, by simp [FEntries.names, e1], by unfold FEntries.Ok; exact ⟨hn, o1, e2⟩, ?_, fun e => ?_⟩
      · unfold dumpEntries
        rw [pathJoin_good hcs hg, o2]
        exact e3
      · have o3 := o3 rfl
        rw [absPath_snoc cs n hcs] at o3
        unfold FEntries.prune
        split
        · rename_i t ht
          rw [ht] at o3
          exact .kept o3 (e4 e)
        · rename_i ht
          rw [ht] at o3
          exact .left o3 (e4 e)
    all_goals
      simp only [Prod.mk.injEq] at h
      obtain ⟨rfl, rfl, rfl⟩ := h
      obtain ⟨node, o1, o2, o3⟩ := dumpFs_sees hs filter path fuel (cs ++ [n]) hcs' s s1 w w1 _ hx
        (by rw [hlen]; exact hc)
      refine ⟨.cons n node (unseen ns), by simp [FEntries.names, unseen_names],
        by unfold FEntries.Ok; exact ⟨hn, o1, unseen_ok ns hns'⟩, ?_, nofun⟩
      unfold dumpEntries
      rw [pathJoin_good hcs hg, o2]
      rfl
termination_by (fuel, ns.length + 1)
end

mutual
theorem seen_dump {S : Type} {fs : FileSys S} (hs : fs.Sane) {filter : Option Filter} {path : Bytes} {s s' : S} {sub : Bytes} {o : Option Tree}
    (h : Seen fs (keeps filter) path s sub o s') (cs : List Bytes) (hcs : ∀ c ∈ cs, Good c) (hsub : sub = absPath cs) :
    ∃ (fuel : Nat) (node : FNode), node.Ok NameOk ∧ node.Dumpable (keeps filter) path sub ∧
      node.prune (keeps filter) path sub = o ∧
      ∀ fuel', fuel ≤ fuel' → ∀ w w', dumpNode filter path node sub w = (.ok (), w') →
        dumpFs fs filter path fuel' sub s w = (.ok (), w', s') := by
  match h with
  | .rejectedFile (x := x) (size := size) hl hk =>
    refine ⟨1, .regular x size [] none, by simp [FNode.Ok], by simp [FNode.Dumpable, hk], by simp [FNode.prune, hk], ?_⟩
    intro fuel' hf w w' hd
    obtain ⟨f, rfl⟩ : ∃ f, fuel' = f + 1 := ⟨fuel' - 1, by omega⟩
    have hk' : keeps filter (pathJoin path sub) typeRegular = false := hk
    simp only [dumpNode, rejects_keeps, hk', Bool.not_false, if_true, Prod.mk.injEq, true_and] at hd
    subst hd
    simp [dumpFs, hl, rejects_keeps, hk']
  | .rejectedLink hl hk =>
    refine ⟨1, .brokenLink .io, by simp [FNode.Ok], hk, by simp [FNode.prune], ?_⟩
    intro fuel' hf w w' hd
    obtain ⟨f, rfl⟩ : ∃ f, fuel' = f + 1 := ⟨fuel' - 1, by omega⟩
    have hk' : keeps filter (pathJoin path sub) typeSymlink = false := hk
    simp only [dumpNode, rejects_keeps, hk', Bool.not_false, if_true, Prod.mk.injEq, true_and] at hd
    subst hd
    simp [dumpFs, hl, rejects_keeps, hk']
  | .rejectedDirectory hl hk =>
    refine ⟨1, .brokenDirectory .io, by simp [FNode.Ok], hk, by simp [FNode.prune], ?_⟩
    intro fuel' hf w w' hd
    obtain ⟨f, rfl⟩ : ∃ f, fuel' = f + 1 := ⟨fuel' - 1, by omega⟩
    have hk' : keeps filter (pathJoin path sub) typeDirectory = false := hk
    simp only [dumpNode, rejects_keeps, hk', Bool.not_false, if_true, Prod.mk.injEq, true_and] at hd
    subst hd
    simp [dumpFs, hl, rejects_keeps, hk']
  | .file (s1 := s1) (x := x) (pieces := ps) hl hk hr =>
    have hsz := hs.size (pathJoin path sub) s1
    rw [hr] at hsz
    refine ⟨1, .regular x ps.flatten.length ps none, by simpa [FNode.Ok] using hsz, fun _ => ⟨rfl, rfl⟩, by simp [FNode.prune, hk], ?_⟩
    intro fuel' hf w w' hd
    obtain ⟨f, rfl⟩ : ∃ f, fuel' = f + 1 := ⟨fuel' - 1, by omega⟩
    have hk' : keeps filter (pathJoin path sub) typeRegular = true := hk
    simp only [dumpNode, rejects_keeps, hk', Bool.not_true, Bool.false_eq_true, if_false] at hd
    simp only [dumpFs, hl, rejects_keeps, hk', Bool.not_true, Bool.false_eq_true, if_false]
    rcases hx : w.writeHeader ⟨sub, typeRegular, [], ps.flatten.length, x⟩ with ⟨r, w1⟩
    rw [hx] at hd
    rcases r with _ | e | _ | _ <;> simp only [andThen, Prod.mk.injEq, reduceCtorEq, false_and] at hd
    simp only [hr]
    unfold andThen
    rw [hd]
  | .link (t := t) hl hk hr =>
    refine ⟨1, .symlink t, by simpa [FNode.Ok] using hs.target _ _ _ _ hr, by simp [FNode.Dumpable], by simp [FNode.prune, hk], ?_⟩
    intro fuel' hf w w' hd
    obtain ⟨f, rfl⟩ : ∃ f, fuel' = f + 1 := ⟨fuel' - 1, by omega⟩
    have hk' : keeps filter (pathJoin path sub) typeSymlink = true := hk
    simp only [dumpNode, rejects_keeps, hk', Bool.not_true, Bool.false_eq_true, if_false] at hd
    simp [dumpFs, hl, rejects_keeps, hk', hr, hd]
  | .directory (names := ns) hl hk hr he =>
    obtain ⟨hsort, hnames⟩ := hs.names _ _ _ _ hr
    obtain ⟨fuel, es, e1, e2, e3, e4, e5⟩ := seen_names hs he cs hcs hsub hnames
    refine ⟨fuel + 1, .directory es, by unfold FNode.Ok; exact ⟨by rw [e1]; exact hsort, e2⟩, fun _ => e3, by simp [FNode.prune, hk, e4], ?_⟩
    intro fuel' hf w w' hd
    obtain ⟨f, rfl⟩ : ∃ f, fuel' = f + 1 := ⟨fuel' - 1, by omega⟩
    have hk' : keeps filter (pathJoin path sub) typeDirectory = true := hk
    simp only [dumpNode, rejects_keeps, hk', Bool.not_true, Bool.false_eq_true, if_false] at hd
    simp only [dumpFs, hl, rejects_keeps, hk', Bool.not_true, Bool.false_eq_true, if_false]
    rcases hx : w.writeHeader ⟨sub, typeDirectory, [], 0, false⟩ with ⟨r, w1⟩
    rw [hx] at hd
    rcases r with _ | e | _ | _ <;> simp only [andThen, Prod.mk.injEq, reduceCtorEq, false_and] at hd
    simp only [hr]
    exact e5 f (by omega) w1 w' hd
theorem seen_names {S : Type} {fs : FileSys S} (hs : fs.Sane) {filter : Option Filter} {path : Bytes} {s s' : S} {sub : Bytes}
    {ns : List Bytes} {ts : Entries}
    (h : SeenEntries fs (keeps filter) path s sub ns ts s') (cs : List Bytes) (hcs : ∀ c ∈ cs, Good c) (hsub : sub = absPath cs)
    (hns : ∀ n ∈ ns, NameOk n) :
    ∃ (fuel : Nat) (es : FEntries), es.names = ns ∧ es.Ok NameOk ∧ es.Dumpable (keeps filter) path sub ∧
      es.prune (keeps filter) path sub = ts ∧
      ∀ fuel', fuel ≤ fuel' → ∀ w w', dumpEntries filter path es sub w = (.ok (), w') →
        dumpNames (dumpFs fs filter path fuel') sub ns s w = (.ok (), w', s') := by
  match h with
  | .nil =>
    refine ⟨0, .nil, rfl, by simp [FEntries.Ok], by simp [FEntries.Dumpable], by simp [FEntries.prune], ?_⟩
    intro fuel' _ w w' hd
    simp only [dumpEntries, Prod.mk.injEq, true_and] at hd
    simp [dumpNames, hd]
  | .kept (n := n) (ns := ns) (t := t) h1 h2 =>
    have hn : NameOk n := hns n (by simp)
    have hg := nameOk_good hn
    have hcs' : ∀ c ∈ cs ++ [n], Good c := by
      intro x hx
      rcases List.mem_append.1 hx with hx | hx
      · exact hcs x hx
      · rw [List.mem_singleton.1 hx]; exact hg
    have hch : childPath sub n = absPath (cs ++ [n]) := by rw [hsub, absPath_snoc cs n hcs]
    have hjoin : pathJoin sub n = childPath sub n := by rw [hch, hsub, pathJoin_good hcs hg]
    obtain ⟨f1, node, a1, a2, a3, a4⟩ := seen_dump hs h1 (cs ++ [n]) hcs' hch
    obtain ⟨f2, es, b1, b2, b3, b4, b5⟩ := seen_names hs h2 cs hcs hsub fun x hx => hns x (List.mem_cons_of_mem _ hx)
    refine ⟨max f1 f2, .cons n node es, by simp [FEntries.names, b1], by unfold FEntries.Ok; exact ⟨hn, a1, b2⟩,
      by unfold FEntries.Dumpable; exact ⟨a2, b3⟩, by simp [FEntries.prune, a3, b4], ?_⟩
    intro fuel' hf w w' hd
    simp only [dumpEntries, hjoin] at hd
    rcases hx : dumpNode filter path node (childPath sub n) w with ⟨r, w1⟩
    rw [hx] at hd
    rcases r with _ | e | _ | _ <;> simp only [andThen, Prod.mk.injEq, reduceCtorEq, false_and] at hd
    simp only [dumpNames, hjoin, a4 fuel' (by omega) w w1 hx]
    exact b5 fuel' (by omega) w1 w' hd
  | .left (n := n) (ns := ns) h1 h2 =>
    have hn : NameOk n := hns n (by simp)
    have hg := nameOk_good hn
    have hcs' : ∀ c ∈ cs ++ [n], Good c := by
      intro x hx
      rcases List.mem_append.1 hx with hx | hx
      · exact hcs x hx
      · rw [List.mem_singleton.1 hx]; exact hg
    have hch : childPath sub n = absPath (cs ++ [n]) := by rw [hsub, absPath_snoc cs n hcs]
    have hjoin : pathJoin sub n = childPath sub n := by rw [hch, hsub, pathJoin_good hcs hg]
    obtain ⟨f1, node, a1, a2, a3, a4⟩ := seen_dump hs h1 (cs ++ [n]) hcs' hch
    obtain ⟨f2, es, b1, b2, b3, b4, b5⟩ := seen_names hs h2 cs hcs hsub fun x hx => hns x (List.mem_cons_of_mem _ hx)
    refine ⟨max f1 f2, .cons n node es, by simp [FEntries.names, b1], by unfold FEntries.Ok; exact ⟨hn, a1, b2⟩,
      by unfold FEntries.Dumpable; exact ⟨a2, b3⟩, by simp [FEntries.prune, a3, b4], ?_⟩
    intro fuel' hf w w' hd
    simp only [dumpEntries, hjoin] at hd
    rcases hx : dumpNode filter path node (childPath sub n) w with ⟨r, w1⟩
    rw [hx] at hd
    rcases r with _ | e | _ | _ <;> simp only [andThen, Prod.mk.injEq, reduceCtorEq, false_and] at hd
    simp only [dumpNames, hjoin, a4 fuel' (by omega) w w1 hx]
    exact b5 fuel' (by omega) w1 w' hd
end

/-- A dump that has come back did what it does on a file system that contains what it has seen. -/
theorem dumpPathFs_sees {S : Type} {fs : FileSys S} (hs : fs.Sane) (fuel : Nat) (filter : Option Filter) (path : Bytes) (s : S) (out : Sink)
    (hc : (dumpPathFilterFs fs fuel filter path s out).1 ≠ .block ∨ Enough fs fuel 0) :
    ∃ node : FNode, node.Ok NameOk ∧
      ((dumpPathFilterFs fs fuel filter path s out).1, (dumpPathFilterFs fs fuel filter path s out).2.1) = dumpPathFilter filter path node out ∧
      ((dumpPathFilterFs fs fuel filter path s out).1 = .ok () →
        Seen fs (keeps filter) path s b!"/" (node.prune (keeps filter) path b!"/") (dumpPathFilterFs fs fuel filter path s out).2.2) := by
  unfold dumpPathFilterFs dumpPathFilter at *
  rcases hn : newWriter out with ⟨w | e | _, o1⟩
  · rw [hn] at hc
    simp only at hc ⊢
    rcases hx : dumpFs fs filter path fuel b!"/" s w with ⟨r, w1, s1⟩
    rw [hx] at hc
    have hE : r ≠ .block ∨ Enough fs fuel ([] : List Bytes).length := by
      rcases hc with hc | hc
      · left; rintro rfl; exact hc rfl
      · exact .inr hc
    obtain ⟨node, h1, h2, h3⟩ := dumpFs_sees hs filter path fuel [] (by simp) s s1 w w1 r hx hE
    have h2' : dumpNode filter path node b!"/" w = (r, w1) := h2
    refine ⟨node, h1, ?_, ?_⟩
    · rw [h2']
      rcases r with _ | e | _ | _ <;> rfl
    · rcases r with _ | e | _ | _
      · exact fun _ => h3 rfl
      all_goals exact nofun
  · exact ⟨.bad .io, by simp [FNode.Ok], rfl, nofun⟩
  · exact ⟨.bad .io, by simp [FNode.Ok], rfl, nofun⟩

/-- C144, soundness: whatever the file system answers, and however it changes while it is dumped, if `DumpPathFilter` returns nil, each node was
looked at once, and what was written is the NAR serialisation of exactly what was seen. -/
theorem C144_sound {S : Type} {fs : FileSys S} (hs : fs.Sane) (fuel : Nat) (filter : Option Filter) (path : Bytes) (s : S)
    (h : (dumpPathFilterFs fs fuel filter path s ⟨[], none⟩).1 = .ok ()) :
    ∃ t, Seen fs (keeps filter) path s b!"/" (some t) (dumpPathFilterFs fs fuel filter path s ⟨[], none⟩).2.2 ∧
      (dumpPathFilterFs fs fuel filter path s ⟨[], none⟩).2.1.out = t.nar := by
  obtain ⟨node, h1, h2, h3⟩ := dumpPathFs_sees hs fuel filter path s ⟨[], none⟩ (.inl (by rw [h]; simp))
  have hok : (dumpPathFilter filter path node ⟨[], none⟩).1 = .ok () := by rw [← h2]; exact h
  obtain ⟨t, e1, e2⟩ := (C35_exact filter path node h1).2 hok
  refine ⟨t, by rw [← e1]; exact h3 h, ?_⟩
  rw [← e2, ← h2]

/-- C144, completeness: if what there is to see can be written (no names like `..foo`, C21), the call returns nil. -/
theorem C144_complete {S : Type} {fs : FileSys S} (hs : fs.Sane) (filter : Option Filter) (path : Bytes) (s s' : S) (t : Tree)
    (h : Seen fs (keeps filter) path s b!"/" (some t) s') (ht : t.All NameWr NodeWr) :
    ∃ fuel, ∀ fuel', fuel ≤ fuel' →
      (dumpPathFilterFs fs fuel' filter path s ⟨[], none⟩).1 = .ok () ∧
      (dumpPathFilterFs fs fuel' filter path s ⟨[], none⟩).2.1.out = t.nar ∧
      (dumpPathFilterFs fs fuel' filter path s ⟨[], none⟩).2.2 = s' := by
  obtain ⟨fuel, node, h1, h2, h3, h4⟩ := seen_dump hs h [] (by simp) rfl
  refine ⟨fuel, fun fuel' hf => ?_⟩
  obtain ⟨g1, g2⟩ := dump_good h1 h2 h3 ht
  unfold dumpPathFilter at g1 g2
  unfold dumpPathFilterFs
  rcases hn : newWriter ⟨[], none⟩ with ⟨w | e | _, o1⟩
  · rw [hn] at g1 g2
    simp only at g1 g2 ⊢
    rcases hx : dumpNode filter path node b!"/" w with ⟨r, w1⟩
    rw [hx] at g1 g2
    rcases r with _ | e | _ | _ <;> simp only [andThen, reduceCtorEq] at g1 g2
    rw [h4 fuel' hf w w1 hx]
    exact ⟨g1, g2, rfl⟩
  · rw [hn] at g1; simp at g1
  · rw [hn] at g1; simp at g1

/-- C144: the call never panics; and if paths cannot be longer than `L` bytes, it returns, whatever the file system does. -/
theorem C144_returns {S : Type} {fs : FileSys S} (hs : fs.Sane) (fuel : Nat) (filter : Option Filter) (path : Bytes) (s : S) (out : Sink) :
    (dumpPathFilterFs fs fuel filter path s out).1 ≠ .panic ∧
    ∀ L, (∀ p s, L < p.length → ∃ e s', fs.lstat p s = (.error e, s')) → L + 2 ≤ fuel →
      (dumpPathFilterFs fs fuel filter path s out).1 ≠ .block := by
  constructor
  · intro h
    obtain ⟨node, _, h2, _⟩ := dumpPathFs_sees hs fuel filter path s out (.inl (by rw [h]; simp))
    exact (C132_dump filter path node out).1 (by rw [← h2]; exact h)
  · intro L hL hf h
    obtain ⟨node, _, h2, _⟩ := dumpPathFs_sees hs fuel filter path s out (.inr ⟨L, hL, by omega, by omega⟩)
    exact (C132_dump filter path node out).2.1 (by rw [← h2]; exact h)

/-! ## A file system that does not change -/

mutual
theorem held_seen {S : Type} {fs : FileSys S} {s : S} (keep : Bytes → Bytes → Bool) (path : Bytes) (t : Tree) (cs : List Bytes)
    (hcs : ∀ c ∈ cs, Good c) (ht : t.All NameOk fun _ => True) (h : Tree.HeldAt fs s t (pathJoin path (absPath cs))) :
    Seen fs keep path s (absPath cs) (filtered keep t (pathJoin path (absPath cs))) s := by
  match t with
  | .regular x c =>
    simp only [Tree.HeldAt] at h
    obtain ⟨h1, ps, h2, rfl⟩ := h
    unfold filtered
    cases hk : keep (pathJoin path (absPath cs)) b!"regular" with
    | false => exact .rejectedFile h1 hk
    | true => exact .file h1 hk h2
  | .symlink t =>
    simp only [Tree.HeldAt] at h
    unfold filtered
    cases hk : keep (pathJoin path (absPath cs)) b!"symlink" with
    | false => exact .rejectedLink h.1 hk
    | true => exact .link h.1 hk h.2
  | .directory es =>
    simp only [Tree.HeldAt] at h
    simp only [Tree.All] at ht
    unfold filtered
    cases hk : keep (pathJoin path (absPath cs)) b!"directory" with
    | false => exact .rejectedDirectory h.1 hk
    | true => exact .directory h.1 hk h.2.1 (held_entries keep path es cs hcs ht.2.2 h.2.2)
theorem held_entries {S : Type} {fs : FileSys S} {s : S} (keep : Bytes → Bytes → Bool) (path : Bytes) (es : Entries) (cs : List Bytes)
    (hcs : ∀ c ∈ cs, Good c) (ht : es.All NameOk fun _ => True) (h : Entries.HeldAt fs s es (pathJoin path (absPath cs))) :
    SeenEntries fs keep path s (absPath cs) es.names (filteredEntries keep es (pathJoin path (absPath cs))) s := by
  match es with
  | .nil => unfold filteredEntries; exact .nil
  | .cons n t es =>
    simp only [Entries.HeldAt] at h
    simp only [Entries.All] at ht
    have hg := nameOk_good ht.1
    have hcs' : ∀ c ∈ cs ++ [n], Good c := by
      intro x hx
      rcases List.mem_append.1 hx with hx | hx
      · exact hcs x hx
      · rw [List.mem_singleton.1 hx]; exact hg
    have h1 := held_seen keep path t (cs ++ [n]) hcs' ht.2.1 (by rw [pathJoin_child path hcs hg]; exact h.1)
    have h2 := held_entries keep path es cs hcs ht.2.2 h.2
    rw [pathJoin_child path hcs hg, absPath_snoc cs n hcs] at h1
    unfold filteredEntries
    split
    · rename_i t' e
      rw [e] at h1
      exact .kept h1 h2
    · rename_i e
      rw [e] at h1
      exact .left h1 h2
end

/-- Where `DumpPath(path)` looks: at the clean path; for the empty path, at the root of the file system. -/
theorem root_path (path : Bytes) : pathJoin path b!"/" = if path = [] then b!"/" else clean path := by
  have := pathJoin_sub path (cs := []) (by simp)
  simp only [absPath_nil, List.append_nil] at this
  rw [this]
  unfold clean absPath
  rfl

/-- C144, static: if the file system has the tree `t` at `path` and does not change, the call for `path` (absolute or relative, clean or not)
writes what the filter leaves of it; every system call is made with the path of the node it is about. -/
theorem C144_static {S : Type} {fs : FileSys S} (hs : fs.Sane) (filter : Option Filter) (path : Bytes) (s : S) (t t' : Tree)
    (ht : t.All NameOk fun _ => True) (hp : path ≠ []) (h : Tree.HeldAt fs s t (clean path))
    (hf : filtered (keeps filter) t (clean path) = some t') (hw : t'.All NameWr NodeWr) :
    ∃ fuel, ∀ fuel', fuel ≤ fuel' →
      (dumpPathFilterFs fs fuel' filter path s ⟨[], none⟩).1 = .ok () ∧
      (dumpPathFilterFs fs fuel' filter path s ⟨[], none⟩).2.1.out = t'.nar ∧
      (dumpPathFilterFs fs fuel' filter path s ⟨[], none⟩).2.2 = s := by
  have e : pathJoin path (absPath []) = clean path := by
    have := root_path path
    rw [if_neg hp] at this
    exact this
  have := held_seen (keeps filter) path t [] (by simp) ht (by rw [e]; exact h)
  rw [e, hf] at this
  exact C144_complete hs filter path s s t' this hw

mutual
theorem writable_ok (t : Tree) (ht : t.All NameWr NodeWr) : t.All NameOk fun _ => True := by
  match t with
  | .regular x c => simp [Tree.All]
  | .symlink t => simp [Tree.All]
  | .directory es =>
    simp only [Tree.All] at ht ⊢
    exact ⟨trivial, ht.2.1, writable_entries_ok es ht.2.2⟩
theorem writable_entries_ok (es : Entries) (ht : es.All NameWr NodeWr) : es.All NameOk fun _ => True := by
  match es with
  | .nil => simp [Entries.All]
  | .cons n t es =>
    simp only [Entries.All] at ht ⊢
    exact ⟨ht.1.1, writable_ok t ht.2.1, writable_entries_ok es ht.2.2⟩
end

mutual
theorem filtered_all (t : Tree) (p : Bytes) : filtered (keeps none) t p = some t := by
  match t with
  | .regular x c => rfl
  | .symlink t => rfl
  | .directory es => simp [filtered, keeps, filteredEntries_all es p]
theorem filteredEntries_all (es : Entries) (p : Bytes) : filteredEntries (keeps none) es p = es := by
  match es with
  | .nil => rfl
  | .cons n t es => simp [filteredEntries, filtered_all t, filteredEntries_all es p]
end

/-- C144, reproducibility: the same tree, in two file systems and at two places (with paths spelled in any way), gives the same bytes: neither the place nor
anything else that the file systems know is written. -/
theorem C144_location {S S' : Type} {fs : FileSys S} {fs' : FileSys S'} (hs : fs.Sane) (hs' : fs'.Sane) (path path' : Bytes) (s : S) (s' : S')
    (t : Tree) (ht : t.All NameWr NodeWr) (hp : path ≠ []) (hp' : path' ≠ []) (h : Tree.HeldAt fs s t (clean path))
    (h' : Tree.HeldAt fs' s' t (clean path')) :
    ∃ fuel, ∀ fuel', fuel ≤ fuel' →
      (dumpPathFilterFs fs fuel' none path s ⟨[], none⟩).1 = .ok () ∧ (dumpPathFilterFs fs' fuel' none path' s' ⟨[], none⟩).1 = .ok () ∧
      (dumpPathFilterFs fs fuel' none path s ⟨[], none⟩).2.1.out = (dumpPathFilterFs fs' fuel' none path' s' ⟨[], none⟩).2.1.out := by
  have hk : t.All NameOk fun _ => True := writable_ok t ht
  obtain ⟨f1, a⟩ := C144_static hs none path s t t hk hp h (filtered_all t _) ht
  obtain ⟨f2, b⟩ := C144_static hs' none path' s' t t hk hp' h' (filtered_all t _) ht
  refine ⟨max f1 f2, fun fuel' hf => ?_⟩
  obtain ⟨a1, a2, _⟩ := a fuel' (by omega)
  obtain ⟨b1, b2, _⟩ := b fuel' (by omega)
  exact ⟨a1, b1, a2.trans b2.symm⟩

/-- The empty path is the root of the file system, not the current directory. -/
theorem C144_empty {S : Type} (fs : FileSys S) (fuel : Nat) (filter : Option Filter) (s : S) (out : Sink) :
    dumpPathFilterFs fs fuel filter [] s out = dumpPathFilterFs fs fuel filter b!"/" s out := by
  have key : ∀ sub : Bytes, sub.head? = some 47 → pathJoin [] sub = pathJoin b!"/" sub := by
    intro sub h
    unfold pathJoin
    have hne : sub ≠ [] := by rintro rfl; simp at h
    rw [if_neg (by simp [hne]), if_pos rfl, if_neg (by simp), if_neg (by simp), if_neg hne]
    have e1 : (b!"/" ++ b!"/" ++ sub).head? = some 47 := rfl
    have e2 : splitByte (b!"/" ++ b!"/" ++ sub) 47 = [] :: [] :: splitByte sub 47 := by
      simp [splitByte]
    rw [clean_rooted _ h, clean_rooted _ e1, cleanComps_rooted _ h, cleanComps_rooted _ e1, e2]
    rfl
  have main : ∀ fuel (sub : Bytes) (s : S) (w : Writer), sub.head? = some 47 →
      dumpFs fs filter [] fuel sub s w = dumpFs fs filter b!"/" fuel sub s w := by
    intro fuel
    induction fuel with
    | zero => intros; rfl
    | succ fuel ih =>
      intro sub s w hsub
      have hnames : ∀ (ns : List Bytes) (s : S) (w : Writer),
          dumpNames (dumpFs fs filter [] fuel) sub ns s w = dumpNames (dumpFs fs filter b!"/" fuel) sub ns s w := by
        intro ns
        induction ns with
        | nil => intros; rfl
        | cons n ns ihn =>
          intro s w
          have hj : (pathJoin sub n).head? = some 47 := by
            unfold pathJoin
            have hne : sub ≠ [] := by rintro rfl; simp at hsub
            rw [if_neg (by simp [hne]), if_neg hne]
            split
            · rw [clean_rooted _ hsub]; rfl
            · rw [clean_rooted]
              · rfl
              · cases sub with
                | nil => exact absurd rfl hne
                | cons x sub => exact hsub
          simp only [dumpNames, ih _ s w hj]
          split <;> first | rfl | exact ihn _ _
      unfold dumpFs
      simp only [key sub hsub, hnames]
  unfold dumpPathFilterFs
  split
  · rfl
  · rfl
  · rw [main fuel b!"/" s _ rfl]

/-- A directory `/d` in which a file is replaced by a link while it is dumped: the first two calls of `lstat` find the directory and the file `a`;
after it was read, `b` is a link. -/
def changing : FileSys Nat where
  lstat p n := (if p = b!"/d" then .ok .directory else if n < 3 then .ok (.regular true 2) else .ok .symlink, n + 1)
  readlink _ n := (.ok b!"a", n + 1)
  readDir _ n := (.ok [b!"a", b!"b"], n + 1)
  read _ n := (([b!"x", b!"y"], none), n + 1)

theorem changing_sane : changing.Sane := by
  refine ⟨?_, ?_, ?_⟩
  · intro p s ns s' h
    simp only [changing, Prod.mk.injEq, Except.ok.injEq] at h
    rw [← h.1]; decide
  · intro p s t s' h
    simp only [changing, Prod.mk.injEq, Except.ok.injEq] at h
    rw [← h.1]; decide
  · intro p s; simp [changing]

example : (dumpPathFilterFs changing 5 none b!"/d/../d/" 0 ⟨[], none⟩).1 = .ok () ∧
    (dumpPathFilterFs changing 5 none b!"/d/../d/" 0 ⟨[], none⟩).2.1.out =
      (Tree.directory (.cons b!"a" (.regular true b!"xy") (.cons b!"b" (.symlink b!"a") .nil))).nar ∧
    (dumpPathFilterFs changing 1 none b!"/d" 0 ⟨[], none⟩).1 = .block := by
  decide +kernel

/-- The relative directory `d` with a file and a subdirectory; nothing changes. -/
def still : FileSys Unit where
  lstat p _ := (if p = b!"../d" ∨ p = b!"../d/s" then .ok .directory else if p = b!"../d/a" ∨ p = b!"../d/s/b" then .ok (.regular false 2) else .error .io, ())
  readlink _ _ := (.error .io, ())
  readDir p _ := (if p = b!"../d" then .ok [b!"a", b!"s"] else .ok [b!"b"], ())
  read p _ := ((if p = b!"../d/a" then [b!"hi"] else [b!"y", [], b!"o"], none), ())

def stillTree : Tree :=
  .directory (.cons b!"a" (.regular false b!"hi") (.cons b!"s" (.directory (.cons b!"b" (.regular false b!"yo") .nil)) .nil))

example : still.Sane ∧ Tree.HeldAt still () stillTree (clean b!"x/../../d/") ∧
    filtered (keeps none) stillTree (clean b!"x/../../d/") = some stillTree := by
  refine ⟨⟨?_, ?_, ?_⟩, ?_, rfl⟩
  · intro p s ns s' h
    simp only [still, Prod.mk.injEq] at h
    have h := h.1
    split at h <;> · cases h; decide
  · intro p s t s' h
    simp [still] at h
  · intro p s
    simp only [still]
    split <;> decide
  · have e : clean b!"x/../../d/" = b!"../d" := by decide +kernel
    rw [e]
    refine ⟨by rfl, by rfl, ⟨by rfl, [b!"hi"], by rfl, rfl⟩,
      ⟨by rfl, by rfl, ⟨by rfl, [b!"y", [], b!"o"], by rfl, rfl⟩, trivial⟩, trivial⟩

end Verif.Props
