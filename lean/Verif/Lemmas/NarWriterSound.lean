import Verif.Lemmas.NarWriter

namespace Verif.Nar
open Verif.GoLib Verif.Spec Verif.Wire

/-- bytes before the node of an entry -/
def entryBytes (n : Bytes) : Bytes :=
  str b!"entry" ++ str b!"(" ++ str b!"name" ++ str n ++ str b!"node"

/-- `Ctx cs S out es plug`: `out` was written and the node at `cs` is being written, the enclosing
directories have the headers `S`; `es` was said so far; `plug` completes a node at `cs` to the
whole tree. -/
inductive Ctx : List Bytes → List Header → Bytes → List (Header × Bytes) → (Tree → Tree) → Prop
  | root : Ctx [] [] (str b!"nix-archive-1") [] id
  | child {cs S out l plug hdr} (n : Bytes) (es : Entries) : Ctx cs S out l plug →
      hdr.path = absPath cs → hdr.typ = b!"directory" → NameWr n →
      es.All NameWr NodeWr → es.names.Pairwise (· < ·) → (∀ k ∈ es.names, k < n) →
      Ctx (cs ++ [n]) (hdr :: S) (out ++ (Tree.directory es).openPart ++ entryBytes n)
        (l ++ ((Tree.directory es).entriesAt (absPath cs)).map said)
        (fun t => plug (.directory (es.snoc n t)))

theorem Ctx.good {cs S out l plug} (h : Ctx cs S out l plug) : ∀ c ∈ cs, NameWr c := by
  induction h with
  | root => simp
  | child n es _ _ _ hn _ _ _ ih =>
    intro c hc
    rcases List.mem_append.1 hc with h | h
    · exact ih c h
    · rw [List.mem_singleton.1 h]; exact hn

theorem NameWr.good {n : Bytes} (h : NameWr n) : Good n := nameOk_good h.1

/-- closing parentheses of the enclosing directories -/
def closes (S : List Header) : Bytes := S.flatMap fun _ => str b!")" ++ str b!")"

theorem snoc_all {es : Entries} {n : Bytes} {t : Tree} (hn : NameWr n)
    (h1 : es.All NameWr NodeWr) (h2 : es.names.Pairwise (· < ·)) (h3 : ∀ k ∈ es.names, k < n)
    (ht : t.All NameWr NodeWr) : (Tree.directory (es.snoc n t)).All NameWr NodeWr := by
  simp only [Tree.All, Entries.all_snoc, Entries.names_snoc]
  refine ⟨trivial, ?_, h1, hn, ht⟩
  rw [List.pairwise_append]
  refine ⟨h2, by simp, ?_⟩
  intro a ha b hb
  rw [List.mem_singleton.1 hb]; exact h3 a ha

theorem Ctx.plug {cs S out l plug} (h : Ctx cs S out l plug) (t : Tree) (ht : t.All NameWr NodeWr) :
    (plug t).All NameWr NodeWr ∧ (plug t).nar = out ++ t.node ++ closes S ∧
    ((plug t).entriesAt b!"/").map said = l ++ (t.entriesAt (absPath cs)).map said := by
  induction h generalizing t with
  | root => exact ⟨ht, by simp [Tree.nar, closes], by simp⟩
  | @child cs S out l plug hdr n es hc _ _ hn h1 h2 h3 ih =>
    obtain ⟨i1, i2, i3⟩ := ih (.directory (es.snoc n t)) (snoc_all hn h1 h2 h3 ht)
    refine ⟨i1, ?_, ?_⟩
    · rw [i2]
      simp [Tree.node, Tree.openPart, Entries.nodes_snoc, entryBytes, closes]
    · rw [i3]
      simp [Tree.entriesAt, Entries.entriesAt_snoc, absPath_snoc cs n (fun c hc' => (hc.good c hc').good)]

theorem snoc_inj {α : Type} {a b : List α} {x y : α} (h : a ++ [x] = b ++ [y]) : a = b ∧ x = y := by
  have := List.append_inj' h rfl
  exact ⟨this.1, by simpa using this.2⟩

theorem nul_comps {b : List Bytes} (h : (0 : UInt8) ∉ absPath b) : ∀ x ∈ b, (0 : UInt8) ∉ x := by
  have key : ∀ (l : List Bytes) (x : Bytes), x ∈ l → ∀ c ∈ x, c ∈ join l b!"/" := by
    intro l
    induction l with
    | nil => simp
    | cons a l ih =>
      intro x hx c hc
      cases l with
      | nil => rw [List.mem_singleton.1 hx] at hc; exact hc
      | cons d l =>
        rw [join_cons (by simp)]
        rcases List.mem_cons.1 hx with rfl | hx
        · simp [hc]
        · have := ih x hx c hc
          simp [this]
  intro x hx h0
  exact h (List.mem_cons_of_mem _ (key b x hx 0 h0))

theorem descend_spec (h : Header) (b : List Bytes) (hb : ∀ z ∈ b, Good z)
    (hpath : h.path = absPath b) (hnul : (0 : UInt8) ∉ h.path) (hk : KnownType h.typ)
    (S : List Header) : ∀ {cs out l plug} (cur : Header) (t : Tree) (cw : Option CW) (S' : List Header)
    (st' : WState), Ctx cs S out l plug → t.All NameWr NodeWr → cur.path = absPath cs →
      (cur.typ = b!"directory" → ∃ es, t = .directory es) → b ≠ cs →
      (∀ n es, b = cs ++ [n] → t = .directory es → ∀ k ∈ es.names, k < n) →
      descend h (cur :: S) ⟨⟨out ++ t.openPart, none⟩, cw⟩ = (.ok S', st') →
      ∃ S'' out' l' plug', S' = h :: S'' ∧ Ctx b S'' out' l' plug' ∧
        st' = ⟨⟨out' ++ hdrBytes h, none⟩, some (cwOf h)⟩ ∧
        l' = l ++ (t.entriesAt (absPath cs)).map said := by
  induction S with
  | nil =>
    intro cs out l plug cur t cw S' st' hctx ht hcp hdir hne hbd hd
    have hcs : ∀ z ∈ cs, Good z := fun z hz => (hctx.good z hz).good
    unfold descend at hd
    rw [M.bind_eq_ok] at hd
    obtain ⟨p, s1, hp, hd⟩ := hd
    simp only [ret, Prod.mk.injEq] at hp
    obtain ⟨hp, rfl⟩ := hp
    cases p with
    | none =>
      simp only [] at hd
      rw [wr_bind] at hd
      simp at hd
    | some n =>
      obtain ⟨e, h1, h2, h3⟩ := place_some hcs hb hcp hpath hp hne
      simp only [] at hd
      rw [M.bind_ok (entryStart_ok n _ _), M.bind_ok (emitStart_ok h hk _ _)] at hd
      simp only [M.pure_apply, Prod.mk.injEq, Res.ok.injEq] at hd
      obtain ⟨rfl, rfl⟩ := hd
      obtain ⟨es, rfl⟩ := hdir h2
      have hg : Good n := hb n (by rw [e]; simp)
      simp only [Tree.All] at ht
      have hc := Ctx.child (hdr := cur) n es hctx hcp h2
        ⟨⟨hg.1, hg.2.1, hg.2.2.1, hg.2.2.2, h3⟩, h1⟩ ht.2.2 ht.2.1
        (fun k hk' => hbd n es e rfl k hk')
      rw [← e] at hc
      exact ⟨_, _, _, _, rfl, hc, by simp [entryBytes], rfl⟩
  | cons hdr S ih =>
    intro cs out l plug cur t cw S' st' hctx ht hcp hdir hne hbd hd
    have hcs : ∀ z ∈ cs, Good z := fun z hz => (hctx.good z hz).good
    unfold descend at hd
    rw [M.bind_eq_ok] at hd
    obtain ⟨p, s1, hp, hd⟩ := hd
    simp only [ret, Prod.mk.injEq] at hp
    obtain ⟨hp, rfl⟩ := hp
    cases p with
    | none =>
      simp only [] at hd
      rw [wr_bind, if_neg (by simp), wr_bind] at hd
      cases hctx with
      | @child cs0 _ out0 l0 plug0 _ m es hctx0 q1 q2 hn q3 q4 q5 =>
        have ho := place_ordered hp
        rw [hcp, hpath] at ho
        have hcs0 : ∀ z ∈ cs0, Good z := fun z hz => hcs z (List.mem_append_left _ hz)
        have hne0 : b ≠ cs0 := by
          rintro rfl
          have := ordered_prefix hcs (List.prefix_append _ _) ho
          simp at this
        have hbd0 : ∀ n es', b = cs0 ++ [n] → Tree.directory (es.snoc m t) = .directory es' →
            ∀ k ∈ es'.names, k < n := by
          intro n es' e1 e2 k hk'
          simp only [Tree.directory.injEq] at e2
          subst e2
          have hmn : m < n := by
            subst e1
            have h1 := ordered_child (x := [m]) hcs hb ho
            rcases List.le_iff_lt_or_eq.1 h1 with h2 | h2
            · refine Classical.byContradiction fun hc => ?_
              have hc' : n ≤ m := List.not_lt.1 hc
              have h3 : ([n] : List Bytes) ≤ [m] := by
                rw [List.cons_le_cons_iff]
                rcases List.le_iff_lt_or_eq.1 hc' with h | h
                · exact .inl h
                · exact .inr ⟨h, List.le_refl _⟩
              rcases List.le_iff_lt_or_eq.1 h3 with h | h
              · exact absurd (List.lt_trans h2 (List.append_left_lt h)) (List.lt_irrefl _)
              · rw [h] at h2; exact absurd h2 (List.lt_irrefl _)
            · exact absurd h2.symm hne
          rw [Entries.names_snoc] at hk'
          rcases List.mem_append.1 hk' with h1 | h1
          · exact List.lt_trans (q5 k h1) hmn
          · rw [List.mem_singleton.1 h1]; exact hmn
        have hout : out0 ++ (Tree.directory es).openPart ++ entryBytes m ++ t.openPart ++ str b!")" ++ str b!")" =
            out0 ++ (Tree.directory (es.snoc m t)).openPart := by
          simp [Tree.openPart, Entries.nodes_snoc, entryBytes, Tree.node_eq]
        rw [hout] at hd
        obtain ⟨S'', out', l', plug', r1, r2, r3, r4⟩ := ih hdr (.directory (es.snoc m t)) cw S' st' hctx0
          (snoc_all hn q3 q4 q5 ht) q1 (fun _ => ⟨_, rfl⟩) hne0 hbd0 hd
        refine ⟨S'', out', l', plug', r1, r2, r3, ?_⟩
        rw [r4]
        simp [Tree.entriesAt, Entries.entriesAt_snoc, absPath_snoc cs0 m hcs0]
    | some n =>
      obtain ⟨e, h1, h2, h3⟩ := place_some hcs hb hcp hpath hp hne
      simp only [] at hd
      rw [M.bind_ok (entryStart_ok n _ _), M.bind_ok (emitStart_ok h hk _ _)] at hd
      simp only [M.pure_apply, Prod.mk.injEq, Res.ok.injEq] at hd
      obtain ⟨rfl, rfl⟩ := hd
      obtain ⟨es, rfl⟩ := hdir h2
      have hg : Good n := hb n (by rw [e]; simp)
      simp only [Tree.All] at ht
      have hc := Ctx.child (hdr := cur) n es hctx hcp h2
        ⟨⟨hg.1, hg.2.1, hg.2.2.1, hg.2.2.2, h3⟩, h1⟩ ht.2.2 ht.2.1
        (fun k hk' => hbd n es e rfl k hk')
      rw [← e] at hc
      exact ⟨_, _, _, _, rfl, hc, by simp [entryBytes], rfl⟩

theorem unwind_ok (S : List Header) (cur : Header) (out : Bytes) (cw : Option CW) :
    unwind (cur :: S) ⟨⟨out, none⟩, cw⟩ = (.ok (), ⟨⟨out ++ str b!")" ++ closes S, none⟩, cw⟩) := by
  induction S generalizing cur out with
  | nil =>
    unfold unwind
    rw [wr_bind]
    simp [closes]
  | cons hdr S ih =>
    unfold unwind
    rw [wr_bind, if_neg (by simp), wr_bind, ih]
    simp [closes]

/-- While a header is current. -/
structure Running (cs : List Bytes) (h : Header) (c : Bytes) (l : List (Header × Bytes)) (w : Writer) :
    Prop where
  ctx : ∃ S out plug, Ctx cs S out l plug ∧ Cur h c out w.st ∧ w.phase = .running (h :: S)
  opened : w.closed = false
  path : h.path = absPath cs
  wr : HeaderWr h
  valid : h.validate = .ok ()

theorem size_lt {h : Header} (hw : HeaderWr h) : toUint64 h.size < 2 ^ 63 := by
  have := hw.size
  unfold toUint64
  omega

theorem leafTree_all {h : Header} {c : Bytes} (hw : HeaderWr h) (hv : h.validate = .ok ())
    (hf : Complete h c) : (leafTree h c).All NameWr NodeWr := by
  have hs := size_lt hw
  have hv := (Props.C34_validate_iff h).1.1 hv
  unfold leafTree
  split
  · rename_i hr
    simp only [Tree.All, NodeWr]
    have := hf hr
    omega
  · split
    · rename_i h2
      exact hv.target h2
    · simp [Tree.All, NodeWr, Entries.names, Entries.All]

theorem header_path {h : Header} (hw : HeaderWr h) (hv : h.validate = .ok ()) :
    h.path = absPath (cleanComps h.path) ∧ (∀ z ∈ cleanComps h.path, Good z) ∧ (0 : UInt8) ∉ h.path := by
  have hv := (Props.C34_validate_iff h).1.1 hv
  have hh : h.path.head? = some 47 := by
    obtain ⟨r, e⟩ := hv.rooted
    rw [e]; rfl
  exact ⟨clean_fixed hh hw.clean, cleanComps_good _ hh, fun h0 => hv.noNul 0 h0 rfl⟩

theorem writeHeader_good {w : Writer} {h : Header} (hg : WOut.good (.unit (w.writeHeader h).1) = true) :
    h.validate = .ok () ∧ w.closed = false ∧ ∃ stack st, emitHeader h w.phase w.st = (.ok stack, st) ∧
      (w.writeHeader h).2 = ⟨st, .running stack, w.closed⟩ := by
  unfold Writer.writeHeader at hg ⊢
  cases hv : h.validate with
  | err e => rw [hv] at hg; simp [WOut.good] at hg
  | panic => rw [hv] at hg; simp [WOut.good] at hg
  | ok u =>
    rw [hv] at hg
    simp only [] at hg ⊢
    by_cases hc : w.closed = true
    · rw [if_pos hc] at hg; simp [WOut.good] at hg
    · rw [if_neg hc] at hg ⊢
      by_cases hp : w.phase = .ended
      · rw [if_pos hp] at hg; simp [WOut.good] at hg
      · rw [if_neg hp] at hg ⊢
        rcases he : emitHeader h w.phase w.st with ⟨_ | _ | _, st⟩
        · exact ⟨trivial, by simpa using hc, _, _, rfl, rfl⟩
        · rw [he] at hg; simp [WOut.good] at hg
        · rw [he] at hg; simp [WOut.good] at hg

theorem cur_start (h : Header) (out : Bytes) :
    Cur h [] out ⟨⟨out ++ hdrBytes h, none⟩, some (cwOf h)⟩ := by
  refine ⟨by simp, ?_, ?_⟩
  · intro hr; simp [cwOf, hr]
  · intro hr; simp [cwOf, hr]

theorem running_header {cs : List Bytes} {h0 h : Header} {c : Bytes} {l : List (Header × Bytes)}
    {w : Writer} (hr : Running cs h0 c l w) (hw : HeaderWr h) (hne : h0.path ≠ h.path)
    (hg : WOut.good (.unit (w.writeHeader h).1) = true) :
    Running (cleanComps h.path) h [] (l ++ [(h0, c)]) (w.writeHeader h).2 := by
  obtain ⟨hv, hcl, stack, st, he, hw'⟩ := writeHeader_good hg
  obtain ⟨S, out, plug, hctx, hcur, hph⟩ := hr.ctx
  obtain ⟨hp1, hp2, hp3⟩ := header_path hw hv
  rw [hph] at he
  unfold emitHeader at he
  rw [M.bind_eq_ok] at he
  obtain ⟨u, st1, h1, h2⟩ := he
  have hcomp := contentClose_ok hcur h1
  obtain ⟨cw, h3⟩ := contentClose_complete hcur hcomp
  rw [h3] at h1
  simp only [Prod.mk.injEq] at h1
  obtain ⟨_, rfl⟩ := h1
  have hnr : h0.typ ≠ b!"regular" → c = [] := fun h => (hcur.other h).2
  have ht := leafTree_open hr.wr.known hcomp hnr
  rw [List.append_assoc out, List.append_assoc out, ← ht] at h2
  have hd : h0.typ = b!"directory" → ∃ es, leafTree h0 c = .directory es := by
    intro e; unfold leafTree; rw [e]; exact ⟨.nil, rfl⟩
  have hne' : cleanComps h.path ≠ cs := by
    intro e; rw [← e] at hr
    apply hne; rw [hr.path]; exact hp1.symm
  obtain ⟨S'', out', l', plug', r1, r2, r3, r4⟩ := descend_spec h (cleanComps h.path) hp2 hp1 hp3 hw.known S h0
    (leafTree h0 c) cw stack st hctx (leafTree_all hr.wr hr.valid hcomp) hr.path hd hne'
    (by
      intro n es _ e2 k hk
      unfold leafTree at e2
      split at e2
      · simp at e2
      · split at e2
        · simp at e2
        · simp only [Tree.directory.injEq] at e2
          subst e2; simp [Entries.names] at hk) h2
  have hl := leafTree_entries hr.wr.known hr.valid hr.wr.size hcomp hnr (absPath cs) hr.path
  have hl' : ((leafTree h0 c).entriesAt (absPath cs)).map said = [(h0, c)] := hl
  rw [hl'] at r4
  rw [hw']
  refine ⟨⟨S'', out', plug', by rw [← r4]; exact r2, ?_, ?_⟩, hcl, hp1, hw, hv⟩
  · simp only []
    rw [r3]; exact cur_start h out'
  · simp only [r1]

theorem running_close {cs : List Bytes} {h0 : Header} {c : Bytes} {l : List (Header × Bytes)}
    {w : Writer} (hr : Running cs h0 c l w) (hg : WOut.good (.unit w.close.1) = true) :
    ∃ t : Tree, t.All NameWr NodeWr ∧ w.close.2.st.sink.out = t.nar ∧
      (t.entriesAt b!"/").map said = l ++ [(h0, c)] := by
  obtain ⟨S, out, plug, hctx, hcur, hph⟩ := hr.ctx
  unfold Writer.close at hg ⊢
  rw [if_neg (by rw [hr.opened]; simp)] at hg ⊢
  rw [hph] at hg ⊢
  rcases he : emitClose (.running (h0 :: S)) w.st with ⟨_ | _ | _, st⟩
  · rw [he] at hg
    unfold emitClose at he
    rw [M.bind_eq_ok] at he
    obtain ⟨u, st1, h1, h2⟩ := he
    have hcomp := contentClose_ok hcur h1
    obtain ⟨cw, h3⟩ := contentClose_complete hcur hcomp
    rw [h3] at h1
    simp only [Prod.mk.injEq] at h1
    obtain ⟨_, rfl⟩ := h1
    have hnr : h0.typ ≠ b!"regular" → c = [] := fun h => (hcur.other h).2
    have ht := leafTree_open hr.wr.known hcomp hnr
    rw [List.append_assoc out, List.append_assoc out, ← ht, unwind_ok] at h2
    obtain ⟨p1, p2, p3⟩ := hctx.plug (leafTree h0 c) (leafTree_all hr.wr hr.valid hcomp)
    have hl := leafTree_entries hr.wr.known hr.valid hr.wr.size hcomp hnr (absPath cs) hr.path
    have hl' : ((leafTree h0 c).entriesAt (absPath cs)).map said = [(h0, c)] := hl
    rw [hl'] at p3
    refine ⟨plug (leafTree h0 c), p1, ?_, p3⟩
    simp only [Prod.mk.injEq] at h2
    obtain ⟨_, rfl⟩ := h2
    rw [p2, Tree.node_eq]
    simp
  · rw [he] at hg; simp [WOut.good] at hg
  · rw [he] at hg; simp [WOut.good] at hg

theorem running_write {cs : List Bytes} {h0 : Header} {c : Bytes} {l : List (Header × Bytes)}
    {w : Writer} (hr : Running cs h0 c l w) (p : Bytes) (hp : p.length < 2 ^ 63)
    (hg : WOut.good (.write (w.write p).1) = true) : Running cs h0 (c ++ p) l (w.write p).2 := by
  obtain ⟨S, out, plug, hctx, hcur, hph⟩ := hr.ctx
  obtain ⟨h1, h2, h3⟩ := write_good hcur p (size_lt hr.wr) hp hg
  exact ⟨⟨S, out, plug, hctx, h3, by rw [h1, hph]⟩, by rw [h2]; exact hr.opened, hr.path, hr.wr, hr.valid⟩

theorem closed_stays {w : Writer} (hc : w.closed = true) (ops : List WOp) :
    (w.run ops).2.closed = true := by
  induction ops generalizing w with
  | nil => exact hc
  | cons o ops ih =>
    apply ih
    cases o with
    | header h =>
      simp only [Writer.op, Writer.writeHeader]
      split
      · exact hc
      · exact hc
      · rw [if_pos hc]; exact hc
    | write p =>
      simp only [Writer.op, Writer.write]
      split
      · exact hc
      · split <;> exact hc
    | close => simp only [Writer.op, Writer.close]; rw [if_pos hc]; exact hc

theorem run_close (w : Writer) (ops : List WOp) :
    (w.run (ops ++ [.close])).1 = (w.run ops).1 ++ [.unit (w.run ops).2.close.1] := by
  induction ops generalizing w with
  | nil => rfl
  | cons o ops ih => simp [Writer.run, ih]

theorem close_closed {w : Writer} (hc : w.closed = true) : WOut.good (.unit w.close.1) = false := by
  unfold Writer.close; rw [if_pos hc]; rfl

theorem session_sound (ops : List WOp) : ∀ {cs h0 c l} {w : Writer}, Running cs h0 c l w →
    (∀ h, .header h ∈ ops → HeaderWr h) → (∀ p, .write p ∈ ops → p.length < 2 ^ 63) →
    NoRepeat (h0.path :: (written ops).map (·.1.path)) →
    (∀ o ∈ (w.run (ops ++ [.close])).1, o.good = true) →
    ∃ t : Tree, t.All NameWr NodeWr ∧ (w.run (ops ++ [.close])).2.st.sink.out = t.nar ∧
      (t.entriesAt b!"/").map said = l ++ (h0, c ++ leadWrites ops) :: written ops := by
  induction ops with
  | nil =>
    intro cs h0 c l w hr _ _ _ hg
    simp only [List.nil_append, Writer.run, Writer.op, List.mem_singleton, forall_eq] at hg
    obtain ⟨t, h1, h2, h3⟩ := running_close hr hg
    exact ⟨t, h1, h2, by simp [leadWrites, written, h3]⟩
  | cons o ops ih =>
    intro cs h0 c l w hr hh hwr hnr hg
    have hg1 : WOut.good (w.op o).1 = true := hg _ (by simp [Writer.run])
    have hg2 : ∀ o' ∈ ((w.op o).2.run (ops ++ [.close])).1, o'.good = true := by
      intro o' ho'; exact hg o' (by simp [Writer.run, ho'])
    have hh' : ∀ h, .header h ∈ ops → HeaderWr h := fun h hm => hh h (List.mem_cons_of_mem _ hm)
    have hwr' : ∀ p, .write p ∈ ops → p.length < 2 ^ 63 := fun h hm => hwr h (List.mem_cons_of_mem _ hm)
    cases o with
    | header h =>
      have hr' := running_header hr (hh h (by simp)) hnr.1 hg1
      obtain ⟨t, h1, h2, h3⟩ := ih hr' hh' hwr' hnr.2 hg2
      exact ⟨t, h1, h2, by simp [leadWrites, written, h3]⟩
    | write p =>
      have hr' := running_write hr p (hwr p (by simp)) hg1
      obtain ⟨t, h1, h2, h3⟩ := ih hr' hh' hwr' hnr hg2
      exact ⟨t, h1, h2, by simp [leadWrites, written, h3]⟩
    | close =>
      exfalso
      have hc : w.close.2.closed = true := by
        unfold Writer.close
        split
        · assumption
        · split <;> rfl
      have h1 := closed_stays hc ops
      have h2 := close_closed h1
      have := hg2 (.unit (w.close.2.run ops).2.close.1) (by
        rw [run_close]; simp [Writer.op])
      rw [this] at h2
      simp at h2

end Verif.Nar
