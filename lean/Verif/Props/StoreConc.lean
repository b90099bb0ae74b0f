import Verif.Spec.StoreConc
import Verif.Props.Store

/-!
# `BadgerStore` with any number of goroutines, and crashes (C97, C98)
-/

namespace Verif.Props
open Verif.GoLib Verif.Derivation Verif.Store Verif.Wire

/-- Nothing is lost or changed. -/
def Grows (db db' : Badger) : Prop := ∀ k v, db.get? k = some v → db'.get? k = some v

theorem grows_refl (db : Badger) : Grows db db := fun _ _ h => h

theorem grows_isSome {db db' : Badger} (h : Grows db db') {k : Bytes} (hk : (db.get? k).isSome = true) : (db'.get? k).isSome = true := by
  obtain ⟨v, hv⟩ := Option.isSome_iff_exists.1 hk
  rw [h k v hv]; rfl

theorem load_grows {db db' : Badger} (h : Grows db db') {l : List Bytes} {r : GoMap Bytes} (hl : db.loadReplacements l = .ok r) :
    db'.loadReplacements l = .ok r := by
  cases l with
  | nil => exact hl
  | cons p l =>
    simp only [Badger.loadReplacements] at hl ⊢
    cases hg : db.get? (b!"replacement:" ++ p) with
    | none => rw [hg] at hl; cases hl
    | some v => rw [hg] at hl; rw [h _ _ hg]; exact hl

/-- The derivation is in the database. -/
def Stored (db : Badger) (p : Bytes) : Prop := (db.get? (b!"drv:" ++ p)).isSome = true

/-- What is true of everything in the database: `t` is the text of a derivation with this path that was put, its inputs are stored, its output
paths are the calculated ones, and its replacement is stored. -/
structure Entry (H : Bytes → Bytes) (D : Derivation → Prop) (db : Badger) (p t : Bytes) : Prop where
  ex : ∃ d, D d ∧ d.validate = .ok () ∧ drvPath H d = .ok p ∧ aterm d false [] = .ok t ∧ (∀ q ∈ d.inputDerivations.keys, Stored db q) ∧
    ∃ repl r, db.loadReplacements d.inputDerivations.keys = .ok repl ∧ checkOutputPaths H d repl = .ok () ∧
      calculateDrvReplacement H d repl = .ok r ∧ db.get? (b!"replacement:" ++ p) = some r

/-- The invariant of the database. -/
structure Good (H : Bytes → Bytes) (D : Derivation → Prop) (db : Badger) : Prop where
  drv : ∀ p t, db.get? (b!"drv:" ++ p) = some t → Entry H D db p t
  repl : ∀ p, (db.get? (b!"replacement:" ++ p)).isSome = true → Stored db p

theorem drv_ne_repl (p q : Bytes) : b!"drv:" ++ p ≠ b!"replacement:" ++ q := by
  intro h
  cases h

theorem drv_inj {p q : Bytes} : b!"drv:" ++ p = b!"drv:" ++ q ↔ p = q := ⟨fun h => List.append_cancel_left h, fun h => by rw [h]⟩
theorem repl_inj {p q : Bytes} : b!"replacement:" ++ p = b!"replacement:" ++ q ↔ p = q := ⟨fun h => List.append_cancel_left h, fun h => by rw [h]⟩

/-- A transaction of `Put`. -/
def commit (p t r : Bytes) (db : Badger) : Badger := (db.insert (b!"drv:" ++ p) t).insert (b!"replacement:" ++ p) r

theorem commit_drv (p t r : Bytes) (db : Badger) (q : Bytes) :
    (commit p t r db).get? (b!"drv:" ++ q) = if p = q then some t else db.get? (b!"drv:" ++ q) := by
  unfold commit
  rw [GoMap.get?_insert, if_neg (fun h => drv_ne_repl q p (by first | exact h | exact h.symm)), GoMap.get?_insert]
  by_cases h : p = q
  · subst h; simp
  · rw [if_neg h, if_neg (fun e => h (by first | exact drv_inj.1 e | exact (drv_inj.1 e).symm))]

theorem commit_repl (p t r : Bytes) (db : Badger) (q : Bytes) :
    (commit p t r db).get? (b!"replacement:" ++ q) = if p = q then some r else db.get? (b!"replacement:" ++ q) := by
  unfold commit
  rw [GoMap.get?_insert]
  by_cases h : p = q
  · subst h; simp
  · rw [if_neg h, if_neg (fun e => h (by first | exact repl_inj.1 e | exact (repl_inj.1 e).symm)), GoMap.get?_insert,
      if_neg (fun h => drv_ne_repl p q (by first | exact h | exact h.symm))]

theorem commit_other (p t r : Bytes) (db : Badger) (k : Bytes) (h1 : b!"drv:" ++ p ≠ k) (h2 : b!"replacement:" ++ p ≠ k) :
    (commit p t r db).get? k = db.get? k := by
  unfold commit
  rw [GoMap.get?_insert, if_neg (by first | exact h2 | exact fun e => h2 e.symm), GoMap.get?_insert, if_neg (by first | exact h1 | exact fun e => h1 e.symm)]

/-- What `Put` knows when it commits. -/
structure Ready (H : Bytes → Bytes) (d : Derivation) (db : Badger) (p t r : Bytes) : Prop where
  valid : d.validate = .ok ()
  inputs : ∀ q ∈ d.inputDerivations.keys, Stored db q
  path : drvPath H d = .ok p
  text : aterm d false [] = .ok t
  repl : ∃ repl, db.loadReplacements d.inputDerivations.keys = .ok repl ∧ checkOutputPaths H d repl = .ok () ∧ calculateDrvReplacement H d repl = .ok r

theorem ready_grows {H : Bytes → Bytes} {d : Derivation} {db db' : Badger} {p t r : Bytes} (h : Ready H d db p t r) (hg : Grows db db') :
    Ready H d db' p t r := by
  obtain ⟨h1, h2, h3, h4, repl, h5, h6⟩ := h
  exact ⟨h1, fun q hq => grows_isSome hg (h2 q hq), h3, h4, repl, load_grows hg h5, h6⟩

/-- Different derivations have different paths. -/
def Distinct (H : Bytes → Bytes) (D : Derivation → Prop) : Prop :=
  ∀ d d' p, D d → D d' → drvPath H d = .ok p → drvPath H d' = .ok p → d = d'

theorem commit_grows {H : Bytes → Bytes} {D : Derivation → Prop} (hD : Distinct H D) {d : Derivation} (hd : D d) {db : Badger} (hg : Good H D db)
    {p t r : Bytes} (h : Ready H d db p t r) : Grows db (commit p t r db) := by
  have same : ∀ t', db.get? (b!"drv:" ++ p) = some t' → t' = t ∧ db.get? (b!"replacement:" ++ p) = some r := by
    intro t' ht'
    obtain ⟨d', hd', _, hp', ha', _, repl', r', hl', _, hr', hg'⟩ := (hg.drv p t' ht').ex
    obtain rfl := hD d' d p hd' hd hp' h.path
    obtain ⟨repl, hl, _, hr⟩ := h.repl
    rw [hl] at hl'; cases hl'
    rw [hr] at hr'; cases hr'
    rw [h.text] at ha'; cases ha'
    exact ⟨rfl, hg'⟩
  intro k v hk
  by_cases h1 : b!"drv:" ++ p = k
  · subst h1
    rw [commit_drv, if_pos rfl, (same v hk).1]
  · by_cases h2 : b!"replacement:" ++ p = k
    · subst h2
      rw [commit_repl, if_pos rfl]
      obtain ⟨t', ht'⟩ := Option.isSome_iff_exists.1 (hg.repl p (by rw [hk]; rfl))
      rw [(same t' ht').2] at hk
      exact hk
    · rw [commit_other _ _ _ _ _ h1 h2]; exact hk

theorem entry_grows {H : Bytes → Bytes} {D : Derivation → Prop} {db db' : Badger} (hg : Grows db db') {p t : Bytes} (h : Entry H D db p t) : Entry H D db' p t := by
  obtain ⟨d, h1, h2, h3, h4, h5, repl, r, h6, h7, h8, h9⟩ := h.ex
  exact ⟨d, h1, h2, h3, h4, fun q hq => grows_isSome hg (h5 q hq), repl, r, load_grows hg h6, h7, h8, hg _ _ h9⟩

theorem commit_good {H : Bytes → Bytes} {D : Derivation → Prop} (hD : Distinct H D) {d : Derivation} (hd : D d) {db : Badger} (hg : Good H D db)
    {p t r : Bytes} (h : Ready H d db p t r) : Good H D (commit p t r db) := by
  have hgr := commit_grows hD hd hg h
  constructor
  · intro q t' ht'
    rw [commit_drv] at ht'
    split at ht'
    · rename_i hq
      subst hq
      cases ht'
      obtain ⟨repl, hl, hc, hr⟩ := h.repl
      exact ⟨d, hd, h.valid, h.path, h.text, fun q hq => grows_isSome hgr (h.inputs q hq), repl, r, load_grows hgr hl, hc, hr,
        by rw [commit_repl, if_pos rfl]⟩
    · exact entry_grows hgr (hg.drv q t' ht')
  · intro q hq
    rw [commit_repl] at hq
    unfold Stored
    rw [commit_drv]
    split at hq
    · rename_i h; rw [if_pos h]; rfl
    · rename_i h; rw [if_neg h]; exact hg.repl q hq

theorem good_mono {H : Bytes → Bytes} {D D' : Derivation → Prop} (hD : ∀ d, D d → D' d) {db : Badger} (hg : Good H D db) : Good H D' db := by
  refine ⟨fun p t ht => ?_, hg.repl⟩
  obtain ⟨d, h1, h2⟩ := (hg.drv p t ht).ex
  exact ⟨d, hD d h1, h2⟩

/-! ## One call -/

theorem checkInputs_prefix (db : Badger) (pre rest : List Bytes) (h : ∀ q ∈ pre, Stored db q) :
    checkInputs db.has (pre ++ rest) = checkInputs db.has rest := by
  induction pre with
  | nil => rfl
  | cons q pre ih =>
    have hq : db.has q = .ok true := by
      have := h q List.mem_cons_self
      unfold Stored at this
      rw [badger_has, this]
    simp only [List.cons_append, checkInputs, hq]
    exact ih fun x hx => h x (List.mem_cons_of_mem _ hx)

theorem put_checked {d : Derivation} {db : Badger} (hv : d.validate = .ok ()) (hi : ∀ q ∈ d.inputDerivations.keys, Stored db q) :
    validateInStore db.has d = .ok () := by
  unfold validateInStore
  rw [hv]
  have := checkInputs_prefix db d.inputDerivations.keys [] hi
  rw [List.append_nil] at this
  simp only [this]
  rfl

/-- What a call that has not taken effect yet may still have to do. -/
inductive Waiting (H : Bytes → Bytes) (jn : Bytes → Res (Option Bytes)) (D : Derivation → Prop) (db : Badger) : SOp → SProg → Prop where
  | has (d : Derivation) (pre rest : List Bytes) : D d → d.validate = .ok () → d.inputDerivations.keys = pre ++ rest → d.inputDerivations.keys ≠ [] →
      (∀ q ∈ pre, Stored db q) → Waiting H jn D db (.put d) (hasLoop (putLoad H d) rest)
  | commit (d : Derivation) (p t r : Bytes) : D d → Ready H d db p t r →
      Waiting H jn D db (.put d) (.txn .failed (commit p t r) fun _ => .ret (.put (.ok p)))
  | get (p : Bytes) : Waiting H jn D db (.get p) ((SOp.get p).prog H jn)
  | hasOp (p : Bytes) : Waiting H jn D db (.has p) ((SOp.has p).prog H jn)

theorem waiting_grows {H : Bytes → Bytes} {jn : Bytes → Res (Option Bytes)} {D D' : Derivation → Prop} {db db' : Badger} (hD : ∀ d, D d → D' d) (hg : Grows db db')
    {op : SOp} {p : SProg} (h : Waiting H jn D db op p) : Waiting H jn D' db' op p := by
  cases h with
  | has d pre rest h1 h2 h3 h4 h5 => exact .has d pre rest (hD d h1) h2 h3 h4 fun q hq => grows_isSome hg (h5 q hq)
  | commit d p t r h1 h2 => exact .commit d p t r (hD d h1) (ready_grows h2 hg)
  | get p => exact .get p
  | hasOp p => exact .hasOp p

/-- A call goes on: it has taken effect now, or it is still waiting. -/
def Progress (H : Bytes → Bytes) (jn : Bytes → Res (Option Bytes)) (D : Derivation → Prop) (db : Badger) (op : SOp) (p : SProg) : Prop :=
  (∃ o, p = .ret o ∧ op.seq H jn db = (o, db)) ∨ Waiting H jn D db op p

theorem finish_progress {H : Bytes → Bytes} {jn : Bytes → Res (Option Bytes)} {D : Derivation → Prop} {db : Badger} {d : Derivation} (hd : D d)
    (hv : d.validate = .ok ()) (hi : ∀ q ∈ d.inputDerivations.keys, Stored db q) {repl : GoMap Bytes}
    (hl : db.loadReplacements d.inputDerivations.keys = .ok repl) : Progress H jn D db (.put d) (putFinish H d repl) := by
  have hput : db.putPath H d = (do checkOutputPaths H d repl; let p ← drvPath H d; let t ← aterm d false []; .ok (p, t, repl)) := by
    unfold Badger.putPath
    rw [put_checked hv hi, hl]
    rfl
  unfold putFinish
  cases hc : checkOutputPaths H d repl with
  | err e => exact .inl ⟨_, rfl, by simp only [SOp.seq, Badger.put, hput, hc, Res.bind_err]⟩
  | panic => exact .inl ⟨_, rfl, by simp only [SOp.seq, Badger.put, hput, hc, Res.bind_panic]⟩
  | ok _ =>
    simp only
    cases hp : drvPath H d with
    | err e => exact .inl ⟨_, rfl, by simp only [SOp.seq, Badger.put, hput, hc, hp, Res.bind_err, Res.bind_ok]⟩
    | panic => exact .inl ⟨_, rfl, by simp only [SOp.seq, Badger.put, hput, hc, hp, Res.bind_panic, Res.bind_ok]⟩
    | ok p =>
      simp only
      cases ht : aterm d false [] with
      | err e => exact .inl ⟨_, rfl, by simp only [SOp.seq, Badger.put, hput, hc, hp, ht, Res.bind_err, Res.bind_ok]⟩
      | panic => exact .inl ⟨_, rfl, by simp only [SOp.seq, Badger.put, hput, hc, hp, ht, Res.bind_panic, Res.bind_ok]⟩
      | ok t =>
        simp only
        cases hr : calculateDrvReplacement H d repl with
        | err e => exact .inl ⟨_, rfl, by simp only [SOp.seq, Badger.put, hput, hc, hp, ht, Res.bind_ok, hr]⟩
        | panic => exact .inl ⟨_, rfl, by simp only [SOp.seq, Badger.put, hput, hc, hp, ht, Res.bind_ok, hr]⟩
        | ok r => exact .inr (.commit d p t r hd ⟨hv, hi, hp, ht, repl, hl, hc, hr⟩)

theorem commit_seq {H : Bytes → Bytes} {jn : Bytes → Res (Option Bytes)} {db : Badger} {d : Derivation} {p t r : Bytes} (h : Ready H d db p t r) :
    (SOp.put d).seq H jn db = (.put (.ok p), commit p t r db) := by
  obtain ⟨repl, hl, hc, hr⟩ := h.repl
  have hput : db.putPath H d = .ok (p, t, repl) := by
    unfold Badger.putPath
    rw [put_checked h.valid h.inputs, hl]
    simp only [Res.bind_ok, hc, h.path, h.text]
  simp only [SOp.seq, Badger.put, hput, hr]
  rfl

/-- The beginning of a call. -/
theorem prog_progress {H : Bytes → Bytes} {jn : Bytes → Res (Option Bytes)} {D : Derivation → Prop} (db : Badger) (op : SOp) (hop : ∀ d, op = .put d → D d) :
    Progress H jn D db op (op.prog H jn) := by
  cases op with
  | get p => exact .inr (.get p)
  | has p => exact .inr (.hasOp p)
  | put d =>
    show Progress H jn D db (.put d) (match d.validate with
      | .err _ => .ret (.put (.err (.msg "unable to validate derivation")))
      | .panic => .ret (.put .panic)
      | .ok () => hasLoop (putLoad H d) d.inputDerivations.keys)
    cases hv : d.validate with
    | err e => exact .inl ⟨_, rfl, by simp only [SOp.seq, Badger.put, Badger.putPath, validateInStore, hv, Res.bind_err]⟩
    | panic => exact .inl ⟨_, rfl, by simp only [SOp.seq, Badger.put, Badger.putPath, validateInStore, hv, Res.bind_panic]⟩
    | ok _ =>
      simp only
      by_cases hk : d.inputDerivations.keys = []
      · rw [hk]
        show Progress H jn D db (.put d) (putLoad H d)
        unfold putLoad
        rw [if_pos hk]
        exact finish_progress (hop d rfl) hv (by rw [hk]; exact fun q hq => nomatch hq) (by rw [hk]; rfl)
      · exact .inr (.has d [] _ (hop d rfl) hv rfl hk (fun q hq => nomatch hq))

/-- A transaction of a call that has not taken effect yet. -/
theorem waiting_step {H : Bytes → Bytes} {jn : Bytes → Res (Option Bytes)} {D : Derivation → Prop} {db : Badger} {op : SOp} {x f k}
    (h : Waiting H jn D db op (.txn x f k)) :
    x = .failed ∧ ((f db = db ∧ Progress H jn D db op (k db)) ∨
    (∃ d p t r, D d ∧ Ready H d db p t r ∧ f = commit p t r ∧ ∃ o, k db = .ret o ∧ op.seq H jn db = (o, commit p t r db))) := by
  generalize hq : SProg.txn x f k = q at h
  cases h with
  | has d pre rest h1 h2 h3 h4 h5 =>
    have hx : x = .failed := by
      cases rest with
      | nil =>
        unfold hasLoop putLoad at hq
        rw [if_neg h4] at hq
        cases hq
        rfl
      | cons q rest =>
        unfold hasLoop at hq
        cases hq
        rfl
    refine ⟨hx, ?_⟩
    left
    cases rest with
    | nil =>
      rw [List.append_nil] at h3
      unfold hasLoop putLoad at hq
      rw [if_neg h4] at hq
      cases hq
      refine ⟨rfl, ?_⟩
      have hi : ∀ q ∈ d.inputDerivations.keys, Stored db q := by rw [h3]; exact h5
      show Progress H jn D db (.put d) (match db.loadReplacements d.inputDerivations.keys with
        | .err e => .ret (.put (.err e))
        | .panic => .ret (.put .panic)
        | .ok repl => putFinish H d repl)
      cases hl : db.loadReplacements d.inputDerivations.keys with
      | ok repl => exact finish_progress h1 h2 hi hl
      | err e =>
        refine .inl ⟨_, rfl, ?_⟩
        have hput : db.putPath H d = .err e := by
          unfold Badger.putPath
          rw [put_checked h2 hi, hl]
          rfl
        simp only [SOp.seq, Badger.put, hput]
      | panic =>
        refine .inl ⟨_, rfl, ?_⟩
        have hput : db.putPath H d = .panic := by
          unfold Badger.putPath
          rw [put_checked h2 hi, hl]
          rfl
        simp only [SOp.seq, Badger.put, hput]
    | cons q rest =>
      unfold hasLoop at hq
      cases hq
      refine ⟨rfl, ?_⟩
      simp only [badger_has]
      cases hs : (db.get? (b!"drv:" ++ q)).isSome with
      | true =>
        have e : hasLoop (putLoad H d) rest = (if (!true) = true then SProg.ret (SOut.put (Res.err (Err.msg "unable to find referred input drv path"))) else hasLoop (putLoad H d) rest) := rfl
        rw [← e]
        refine .inr (.has d (pre ++ [q]) rest h1 h2 (by rw [h3]; simp) h4 ?_)
        intro x hx
        rcases List.mem_append.1 hx with hx | hx
        · exact h5 x hx
        · rw [List.mem_singleton.1 hx]; exact hs
      | false =>
        refine .inl ⟨_, rfl, ?_⟩
        have hput : db.putPath H d = .err (.msg "unable to find referred input drv path") := by
          unfold Badger.putPath validateInStore
          rw [h2, h3]
          simp only
          rw [checkInputs_prefix db pre _ h5]
          simp only [checkInputs, badger_has, hs]
          rfl
        simp only [SOp.seq, Badger.put, hput]
  | commit d p t r h1 h2 =>
    cases hq
    exact ⟨rfl, .inr ⟨d, p, t, r, h1, h2, rfl, _, rfl, commit_seq h2⟩⟩
  | get p =>
    cases hq
    exact ⟨rfl, .inl ⟨rfl, .inl ⟨_, rfl, rfl⟩⟩⟩
  | hasOp p =>
    cases hq
    exact ⟨rfl, .inl ⟨rfl, .inl ⟨_, rfl, rfl⟩⟩⟩

/-! ## All executions -/

/-- What a goroutine is doing, and where its call is. -/
inductive Matches (H : Bytes → Bytes) (jn : Bytes → Res (Option Bytes)) (D : Derivation → Prop) (db : Badger) : Option SProg → CSt → Prop where
  | idle : Matches H jn D db none .idle
  | waiting {op : SOp} {p : SProg} : Waiting H jn D db op p → Matches H jn D db (some p) (.called op)
  | done (o : SOut) : (∀ p, o = .put (.ok p) → Stored db p) → Matches H jn D db (some (.ret o)) (.effective o)
  | failed {c : CSt} : c ≠ .idle → Matches H jn D db (some (.ret .failed)) c

theorem matches_grows {H : Bytes → Bytes} {jn : Bytes → Res (Option Bytes)} {D : Derivation → Prop} {db db' : Badger} (hg : Grows db db')
    {p : Option SProg} {c : CSt} (h : Matches H jn D db p c) : Matches H jn D db' p c := by
  cases h with
  | idle => exact .idle
  | waiting h => exact .waiting (waiting_grows (fun _ h => h) hg h)
  | done o h => exact .done o fun p hp => grows_isSome hg (h p hp)
  | failed h => exact .failed h

theorem waiting_not_ret {H : Bytes → Bytes} {jn : Bytes → Res (Option Bytes)} {D : Derivation → Prop} {db : Badger} {op : SOp} {o : SOut}
    (h : Waiting H jn D db op (.ret o)) : False := by
  generalize hq : SProg.ret o = q at h
  cases h with
  | has d pre rest h1 h2 h3 h4 h5 =>
    cases rest with
    | nil =>
      unfold hasLoop putLoad at hq
      rw [if_neg h4] at hq
      cases hq
    | cons q rest => unfold hasLoop at hq; cases hq
  | commit d p t r h1 h2 => cases hq
  | get p => cases hq
  | hasOp p => cases hq

/-- The invariant: the calls so far can be put in an order, and the database is good. -/
structure Inv (H : Bytes → Bytes) (jn : Bytes → Res (Option Bytes)) (D : Derivation → Prop) {ι : Type} [DecidableEq ι] (h : List (Ev ι)) (s : Sys ι)
    (e : List (LEv ι)) : Prop where
  evs : e.filterMap LEv.ev? = h
  lin : e.foldlM (linStep H jn) [] = some s.db
  good : Good H D s.db
  returned : ∀ i p, Ev.ret i (.put (.ok p)) ∈ h → Stored s.db p
  client : ∀ i, ∃ c, e.foldlM (clientStep i) CSt.idle = some c ∧ Matches H jn D s.db (s.threads i) c

theorem good_nil (H : Bytes → Bytes) (D : Derivation → Prop) : Good H D [] := by
  constructor
  · intro p t h; cases h
  · intro p h; cases h

theorem foldlM_snoc {α β : Type} (f : β → α → Option β) (b : β) (l : List α) (a : α) {c : β} (h : l.foldlM f b = some c) :
    (l ++ [a]).foldlM f b = f c a := by
  rw [List.foldlM_append, h]
  show (List.foldlM f c [a]) = _
  simp only [List.foldlM_cons, List.foldlM_nil]
  cases f c a <;> rfl

variable {H : Bytes → Bytes} {jn : Bytes → Res (Option Bytes)} {D : Derivation → Prop} {ι : Type} [DecidableEq ι]

/-- The invariant without what `i` is doing, which has called `op`. -/
structure InvBut (H : Bytes → Bytes) (jn : Bytes → Res (Option Bytes)) (D : Derivation → Prop) {ι : Type} [DecidableEq ι] (h : List (Ev ι)) (s : Sys ι)
    (e : List (LEv ι)) (i : ι) (op : SOp) : Prop where
  evs : e.filterMap LEv.ev? = h
  lin : e.foldlM (linStep H jn) [] = some s.db
  good : Good H D s.db
  called : e.foldlM (clientStep i) CSt.idle = some (.called op)
  returned : ∀ i p, Ev.ret i (.put (.ok p)) ∈ h → Stored s.db p
  client : ∀ j, j ≠ i → ∃ c, e.foldlM (clientStep j) CSt.idle = some c ∧ Matches H jn D s.db (s.threads j) c

theorem seq_put_stored {op : SOp} {db db' : Badger} {p : Bytes} (h : op.seq H jn db = (.put (.ok p), db')) : Stored db' p := by
  cases op with
  | get q => cases h
  | has q => cases h
  | put d =>
    have h0 := Prod.mk.inj h
    have h1 : (Badger.put H d db).1 = .ok p := SOut.put.inj h0.1
    have h2 : (Badger.put H d db).2 = db' := h0.2
    unfold Badger.put at h1 h2
    cases hp : db.putPath H d with
    | err e => rw [hp] at h1; cases h1
    | panic => rw [hp] at h1; cases h1
    | ok x =>
      obtain ⟨p', t, repl⟩ := x
      rw [hp] at h1 h2
      simp only at h1 h2
      cases hr : calculateDrvReplacement H d repl with
      | err e => rw [hr] at h1; cases h1
      | panic => rw [hr] at h1; cases h1
      | ok r =>
        rw [hr] at h1 h2
        cases h1
        subst h2
        show ((commit p t r db).get? (b!"drv:" ++ p)).isSome = true
        rw [commit_drv, if_pos rfl]
        rfl

/-- A call takes effect. -/
theorem inv_lin {h : List (Ev ι)} {s : Sys ι} {e : List (LEv ι)} {i : ι} {op : SOp} (hI : InvBut H jn D h s e i op) {o : SOut} {db' : Badger}
    (hs : op.seq H jn s.db = (o, db')) (hg : Grows s.db db') (hgood : Good H D db') :
    Inv H jn D h ⟨db', setThread s.threads i (some (.ret o))⟩ (e ++ [.lin i op o]) := by
  refine ⟨?_, ?_, hgood, fun i p hp => grows_isSome hg (hI.returned i p hp), ?_⟩
  · rw [List.filterMap_append, hI.evs]
    exact List.append_nil h
  · rw [foldlM_snoc _ _ _ _ hI.lin]
    simp only [linStep, hs, if_true]
  · intro j
    by_cases hj : j = i
    · subst hj
      refine ⟨.effective o, ?_, ?_⟩
      · rw [foldlM_snoc _ _ _ _ hI.called]
        simp [clientStep]
      · show Matches H jn D db' (if j = j then some (.ret o) else s.threads j) _
        rw [if_pos rfl]
        exact .done o fun p hp => seq_put_stored (by rw [← hp]; exact hs)
    · obtain ⟨c, h1, h2⟩ := hI.client j hj
      refine ⟨c, ?_, ?_⟩
      · rw [foldlM_snoc _ _ _ _ h1]
        simp only [clientStep]
        rw [if_pos (fun h => hj h.symm)]
      · show Matches H jn D db' (if j = i then some (.ret o) else s.threads j) _
        rw [if_neg hj]
        exact matches_grows hg h2

/-- A call goes on and has not taken effect, or has taken effect without changing anything. -/
theorem inv_progress {h : List (Ev ι)} {s : Sys ι} {e : List (LEv ι)} {i : ι} {op : SOp} (hI : InvBut H jn D h s e i op) {p : SProg}
    (hp : Progress H jn D s.db op p) : ∃ e', Inv H jn D h ⟨s.db, setThread s.threads i (some p)⟩ e' := by
  rcases hp with ⟨o, rfl, hs⟩ | hw
  · exact ⟨_, inv_lin hI hs (grows_refl _) hI.good⟩
  · refine ⟨e, hI.evs, hI.lin, hI.good, hI.returned, fun j => ?_⟩
    by_cases hj : j = i
    · subst hj
      refine ⟨_, hI.called, ?_⟩
      show Matches H jn D s.db (if j = j then some p else s.threads j) _
      rw [if_pos rfl]
      exact .waiting hw
    · obtain ⟨c, h1, h2⟩ := hI.client j hj
      refine ⟨c, h1, ?_⟩
      show Matches H jn D s.db (if j = i then some p else s.threads j) _
      rw [if_neg hj]
      exact h2

/-- A call fails. -/
theorem inv_failed {h : List (Ev ι)} {s : Sys ι} {e : List (LEv ι)} {i : ι} (hI : Inv H jn D h s e) {p : SProg} (hp : s.threads i = some p) :
    Inv H jn D h ⟨s.db, setThread s.threads i (some (.ret .failed))⟩ e := by
  refine ⟨hI.evs, hI.lin, hI.good, hI.returned, fun j => ?_⟩
  obtain ⟨c, h1, h2⟩ := hI.client j
  refine ⟨c, h1, ?_⟩
  show Matches H jn D s.db (if j = i then some (.ret .failed) else s.threads j) _
  by_cases hj : j = i
  · subst hj
    rw [if_pos rfl]
    rw [hp] at h2
    cases h2 with
    | waiting hw => exact .failed (by simp)
    | done o _ => exact .failed (by simp)
    | failed h => exact .failed h
  · rw [if_neg hj]
    exact h2

theorem setThread_twice (t : ι → Option SProg) (i : ι) (a b : Option SProg) : setThread (setThread t i a) i b = setThread t i b := by
  funext j
  unfold setThread
  split <;> rfl

/-- The invariant holds, and nothing was lost. -/
theorem run_inv (hD : Distinct H D) {h0 : List (Ev ι)} {s0 : Sys ι} {e0 : List (LEv ι)} (h00 : Inv H jn D h0 s0 e0)
    {h : List (Ev ι)} {s : Sys ι} (hr : RunFrom H jn h0 s0 h s) : (∀ i d, Ev.inv i (.put d) ∈ h → D d) →
    (∃ e, Inv H jn D h s e) ∧ Grows s0.db s.db := by
  induction hr with
  | init => exact fun _ => ⟨⟨_, h00⟩, grows_refl _⟩
  | @inv h s i op _ ht ih =>
    intro hd
    obtain ⟨⟨e, hI⟩, hg⟩ := ih fun i d hm => hd i d (List.mem_append_left _ hm)
    refine ⟨?_, hg⟩
    obtain ⟨c, hc, hm⟩ := hI.client i
    rw [ht] at hm
    cases hm
    have hI' : InvBut H jn D (h ++ [.inv i op]) s (e ++ [.ev (.inv i op)]) i op := by
      refine ⟨?_, ?_, hI.good, ?_, ?_, ?_⟩
      · rw [List.filterMap_append, hI.evs]; rfl
      · rw [foldlM_snoc _ _ _ _ hI.lin]; rfl
      · rw [foldlM_snoc _ _ _ _ hc]; simp [clientStep]
      · intro j p hp
        rcases List.mem_append.1 hp with hp | hp
        · exact hI.returned j p hp
        · cases List.mem_singleton.1 hp
      · intro j hj
        obtain ⟨c, h1, h2⟩ := hI.client j
        refine ⟨c, ?_, h2⟩
        rw [foldlM_snoc _ _ _ _ h1]
        simp only [clientStep]
        rw [if_pos (fun h => hj h.symm)]
    refine inv_progress hI' (prog_progress s.db op fun d hop => hd i d ?_)
    rw [hop]
    exact List.mem_append_right _ List.mem_cons_self
  | @txn h s i x f k _ ht ih =>
    intro hd
    obtain ⟨⟨e, hI⟩, hg⟩ := ih hd
    obtain ⟨c, hc, hm⟩ := hI.client i
    rw [ht] at hm
    generalize hp : some (SProg.txn x f k) = p at hm
    cases hm with
    | idle => cases hp
    | done o _ => cases hp
    | failed _ => cases hp
    | @waiting op p hw =>
      cases hp
      have hI' : InvBut H jn D h s e i op := ⟨hI.evs, hI.lin, hI.good, hc, hI.returned, fun j _ => hI.client j⟩
      rcases waiting_step hw with ⟨_, ⟨hf, hp⟩ | ⟨d, p, t, r, hdd, hready, rfl, o, hk, hs⟩⟩
      · rw [hf]
        exact ⟨inv_progress hI' hp, hg⟩
      · have hgr := commit_grows hD hdd hI.good hready
        refine ⟨?_, fun k v hv => hgr k v (hg k v hv)⟩
        rw [hk]
        exact ⟨_, inv_lin hI' hs hgr (commit_good hD hdd hI.good hready)⟩
  | @fail h s i x f k committed _ ht ih =>
    intro hd
    obtain ⟨⟨e, hI⟩, hg⟩ := ih hd
    obtain ⟨c, hc, hm⟩ := hI.client i
    rw [ht] at hm
    generalize hp : some (SProg.txn x f k) = p at hm
    cases hm with
    | idle => cases hp
    | done o _ => cases hp
    | failed _ => cases hp
    | @waiting op p hw =>
      cases hp
      have hI' : InvBut H jn D h s e i op := ⟨hI.evs, hI.lin, hI.good, hc, hI.returned, fun j _ => hI.client j⟩
      obtain ⟨rfl, hstep⟩ := waiting_step hw
      cases committed with
      | false => exact ⟨⟨e, inv_failed hI ht⟩, hg⟩
      | true =>
        rw [if_pos rfl]
        rcases hstep with ⟨hf, _⟩ | ⟨d, p, t, r, hdd, hready, rfl, o, hk, hs⟩
        · rw [hf]
          exact ⟨⟨e, inv_failed hI ht⟩, hg⟩
        · have hgr := commit_grows hD hdd hI.good hready
          refine ⟨?_, fun k v hv => hgr k v (hg k v hv)⟩
          have h1 := inv_lin hI' hs hgr (commit_good hD hdd hI.good hready)
          have h2 := inv_failed (i := i) h1 (p := .ret o) (by simp [setThread])
          rw [setThread_twice] at h2
          exact ⟨_, h2⟩
  | @ret h s i o _ ht ih =>
    intro hd
    obtain ⟨⟨e, hI⟩, hg⟩ := ih fun i d hm => hd i d (List.mem_append_left _ hm)
    refine ⟨⟨e ++ [.ev (.ret i o)], ?_, ?_, hI.good, ?_, ?_⟩, hg⟩
    · rw [List.filterMap_append, hI.evs]; rfl
    · rw [foldlM_snoc _ _ _ _ hI.lin]; rfl
    · intro j p hp
      rcases List.mem_append.1 hp with hp | hp
      · exact hI.returned j p hp
      · cases List.mem_singleton.1 hp
        obtain ⟨c, hc, hm⟩ := hI.client i
        rw [ht] at hm
        generalize hp : some (SProg.ret (.put (.ok p))) = q at hm
        cases hm with
        | idle => cases hp
        | waiting hw => cases hp; exact (waiting_not_ret hw).elim
        | done o' hs => cases hp; exact hs p rfl
        | failed _ => cases hp
    · intro j
      obtain ⟨c, hc, hm⟩ := hI.client j
      by_cases hj : j = i
      · subst hj
        rw [ht] at hm
        refine ⟨.idle, ?_, ?_⟩
        · generalize hp : some (SProg.ret o) = p at hm
          cases hm with
          | idle => cases hp
          | waiting hw => cases hp; exact (waiting_not_ret hw).elim
          | done o' _ =>
            cases hp
            rw [foldlM_snoc _ _ _ _ hc]
            simp [clientStep]
          | failed hne =>
            cases hp
            rw [foldlM_snoc _ _ _ _ hc]
            simp [clientStep, hne]
        · show Matches H jn D s.db (if j = j then none else s.threads j) _
          rw [if_pos rfl]
          exact .idle
      · refine ⟨c, ?_, ?_⟩
        · rw [foldlM_snoc _ _ _ _ hc]
          simp only [clientStep]
          rw [if_pos (fun h => hj h.symm)]
        · show Matches H jn D s.db (if j = i then none else s.threads j) _
          rw [if_neg hj]
          exact hm
  | @crash h s _ ih =>
    intro hd
    obtain ⟨⟨e, hI⟩, hg⟩ := ih fun i d hm => hd i d (List.mem_append_left _ hm)
    refine ⟨⟨e ++ [.ev .crash], ?_, ?_, hI.good, ?_, ?_⟩, hg⟩
    · rw [List.filterMap_append, hI.evs]; rfl
    · rw [foldlM_snoc _ _ _ _ hI.lin]; rfl
    · intro j p hp
      rcases List.mem_append.1 hp with hp | hp
      · exact hI.returned j p hp
      · cases List.mem_singleton.1 hp
    · intro j
      obtain ⟨c, hc, _⟩ := hI.client j
      exact ⟨.idle, by rw [foldlM_snoc _ _ _ _ hc]; rfl, .idle⟩

/-! ## A concrete execution -/

/-- What happens next: a call, goroutine `i` goes on, its transaction fails, a crash. -/
inductive Choice (ι : Type) where
  | call (i : ι) (op : SOp)
  | go (i : ι)
  | fail (i : ι) (committed : Bool)
  | crash

/-- Execute. -/
def execStep (H : Bytes → Bytes) (jn : Bytes → Res (Option Bytes)) {ι : Type} [DecidableEq ι] (x : List (Ev ι) × Sys ι) : Choice ι → List (Ev ι) × Sys ι
  | .crash => (x.1 ++ [.crash], ⟨x.2.db, fun _ => none⟩)
  | .call i op =>
    match x.2.threads i with
    | none => (x.1 ++ [.inv i op], ⟨x.2.db, setThread x.2.threads i (some (op.prog H jn))⟩)
    | some _ => x
  | .go i =>
    match x.2.threads i with
    | none => x
    | some (.txn _ f k) => (x.1, ⟨f x.2.db, setThread x.2.threads i (some (k x.2.db))⟩)
    | some (.ret o) => (x.1 ++ [.ret i o], ⟨x.2.db, setThread x.2.threads i none⟩)
  | .fail i b =>
    match x.2.threads i with
    | some (.txn o f _) => (x.1, ⟨if b then f x.2.db else x.2.db, setThread x.2.threads i (some (.ret o))⟩)
    | _ => x

theorem execStep_run (x : List (Ev ι) × Sys ι) (c : Choice ι) (hx : Run H jn x.1 x.2) : Run H jn (execStep H jn x c).1 (execStep H jn x c).2 := by
  cases c with
  | crash => exact .crash hx
  | call i op =>
    cases ht : x.2.threads i with
    | none => simp only [execStep, ht]; exact .inv i op hx ht
    | some p => simp only [execStep, ht]; exact hx
  | go i =>
    cases ht : x.2.threads i with
    | none => simp only [execStep, ht]; exact hx
    | some p =>
      cases p with
      | txn o f k => simp only [execStep, ht]; exact .txn i o f k hx ht
      | ret o => simp only [execStep, ht]; exact .ret i o hx ht
  | fail i b =>
    cases ht : x.2.threads i with
    | none => simp only [execStep, ht]; exact hx
    | some p =>
      cases p with
      | txn o f k => simp only [execStep, ht]; exact .fail i o f k b hx ht
      | ret o => simp only [execStep, ht]; exact hx

theorem exec_run (cs : List (Choice ι)) (x : List (Ev ι) × Sys ι) (hx : Run H jn x.1 x.2) :
    Run H jn (cs.foldl (execStep H jn) x).1 (cs.foldl (execStep H jn) x).2 := by
  induction cs generalizing x with
  | nil => exact hx
  | cons c cs ih => exact ih _ (execStep_run x c hx)

theorem distinct_of {h : List (Ev ι)} (hn : NoCollision H h) : Distinct H fun d => ∃ i, Ev.inv i (.put d) ∈ h :=
  fun d d' p ⟨i, hi⟩ ⟨j, hj⟩ h1 h2 => hn i j d d' p hi hj h1 h2

theorem inv_init : Inv H jn D ([] : List (Ev ι)) ⟨[], fun _ => none⟩ [] :=
  ⟨rfl, rfl, good_nil H D, (fun _ _ h => nomatch h), fun _ => ⟨.idle, rfl, .idle⟩⟩

theorem run_inv' {h : List (Ev ι)} {s : Sys ι} (hr : Run H jn h s) (hn : NoCollision H h) :
    ∃ e, Inv H jn (fun d => ∃ i, Ev.inv i (.put d) ∈ h) h s e :=
  (run_inv (distinct_of hn) inv_init hr fun i _ hd => ⟨i, hd⟩).1

/-- C97. Whatever any number of goroutines do with one `BadgerStore`, and however their transactions interleave and fail and the process crashes, what they observe, and the
database they leave behind, is what they would have seen if every call had been executed alone, at one moment between its beginning and its end; only a call that
returned an error of the database may have had no effect. -/
theorem C97_linearizable {h : List (Ev ι)} {s : Sys ι} (hr : Run H jn h s) (hn : NoCollision H h) : Linearizable H jn h s.db := by
  obtain ⟨e, hI⟩ := run_inv' hr hn
  exact ⟨e, hI.evs, hI.lin, fun i => by obtain ⟨c, hc, _⟩ := hI.client i; exact ⟨c, hc⟩⟩

/-- C98. At every moment, in particular when the process crashes: what is stored as `p` is the text of a derivation that some goroutine called `Put` with, whose path is `p`,
which is valid, all of whose input derivations are stored, whose output paths are the calculated ones, and whose replacement is stored too. -/
theorem C98_crash_consistent {h : List (Ev ι)} {s : Sys ι} (hr : Run H jn h s) (hn : NoCollision H h) (p t : Bytes)
    (ht : s.db.get? (b!"drv:" ++ p) = some t) :
    ∃ i d, Ev.inv i (.put d) ∈ h ∧ d.validate = .ok () ∧ drvPath H d = .ok p ∧ aterm d false [] = .ok t ∧
      (∀ q ∈ d.inputDerivations.keys, (s.db.get? (b!"drv:" ++ q)).isSome = true) ∧
      ∃ repl r, s.db.loadReplacements d.inputDerivations.keys = .ok repl ∧ checkOutputPaths H d repl = .ok () ∧
        calculateDrvReplacement H d repl = .ok r ∧ s.db.get? (b!"replacement:" ++ p) = some r := by
  obtain ⟨e, hI⟩ := run_inv' hr hn
  obtain ⟨d, ⟨i, hi⟩, h2⟩ := (hI.good.drv p t ht).ex
  exact ⟨i, d, hi, h2⟩

/-- C98. A derivation whose `Put` has returned is stored, whatever happens afterwards. -/
theorem C98_put_durable {h : List (Ev ι)} {s : Sys ι} (hr : Run H jn h s) (hn : NoCollision H h) (i : ι) (p : Bytes)
    (hp : Ev.ret i (.put (.ok p)) ∈ h) : (s.db.get? (b!"drv:" ++ p)).isSome = true := by
  obtain ⟨e, hI⟩ := run_inv' hr hn
  exact hI.returned i p hp

/-- C98. Nothing that is stored is lost or changed later, by any goroutine or by a crash. -/
theorem C98_never_lost {h h' : List (Ev ι)} {s s' : Sys ι} (hr : Run H jn h s) (hr' : RunFrom H jn h s h' s') (hn : NoCollision H h') (k v : Bytes)
    (hk : s.db.get? k = some v) : s'.db.get? k = some v := by
  have hsub : ∀ e ∈ h, e ∈ h' := by
    clear hn hk hr
    induction hr' with
    | init => exact fun _ h => h
    | inv i op _ _ ih => exact fun e he => List.mem_append_left _ (ih e he)
    | txn i o f k _ _ ih => exact ih
    | fail i o f k b _ _ ih => exact ih
    | ret i o _ _ ih => exact fun e he => List.mem_append_left _ (ih e he)
    | crash _ ih => exact fun e he => List.mem_append_left _ (ih e he)
  obtain ⟨⟨e, hI⟩, _⟩ := run_inv (distinct_of hn) inv_init hr fun i _ hd => ⟨i, hsub _ hd⟩
  exact (run_inv (distinct_of hn) hI hr' fun i _ hd => ⟨i, hd⟩).2 k v hk

/-- A goroutine puts a derivation, which is committed although an error is returned. Two goroutines put derivations, of which one needs the other; the process crashes after the second has committed and before it returns;
then one looks whether it is there. -/
def sampleChoices : List (Choice Bool) :=
  [.call false (.put (fetchDrv b!"a")), .fail false true, .go false, .call false (.put (fetchDrv b!"a")), .call true (.put (userDrv [b!"a"])), .go false, .go true, .go false, .go true, .go true, .crash,
   .call false (.has (b!"/nix/store/" ++ dHash ++ b!"-user.drv")), .go false, .go false]

def sampleRun : List (Ev Bool) × Sys Bool := sampleChoices.foldl (execStep zeroHash fun _ => .panic) ([], ⟨[], fun _ => none⟩)

theorem sampleRun_history : sampleRun.1 =
    [.inv false (.put (fetchDrv b!"a")), .ret false .failed, .inv false (.put (fetchDrv b!"a")), .inv true (.put (userDrv [b!"a"])), .ret false (.put (.ok (b!"/nix/store/" ++ dHash ++ b!"-a.drv"))), .crash,
     .inv false (.has (b!"/nix/store/" ++ dHash ++ b!"-user.drv")), .ret false (.has (.ok true))] := by
  rfl

/-- The hypotheses of C97 and C98 can be met. -/
example : Run zeroHash (fun _ => .panic) sampleRun.1 sampleRun.2 ∧ NoCollision zeroHash sampleRun.1 ∧
    (sampleRun.2.db.get? (b!"drv:" ++ (b!"/nix/store/" ++ dHash ++ b!"-user.drv"))).isSome = true := by
  refine ⟨exec_run _ _ .init, ?_, by rfl⟩
  have hm : ∀ i d, Ev.inv i (.put d) ∈ sampleRun.1 → d ∈ [fetchDrv b!"a", userDrv [b!"a"]] := by
    intro i d h
    rw [sampleRun_history] at h
    simp only [List.mem_cons, Ev.inv.injEq, SOp.put.injEq, reduceCtorEq, and_false, List.not_mem_nil, or_false, false_or] at h
    rcases h with ⟨_, rfl⟩ | ⟨_, rfl⟩ | ⟨_, rfl⟩
    · exact List.mem_cons_self
    · exact List.mem_cons_self
    · exact List.mem_cons_of_mem _ List.mem_cons_self
  intro i j d d' p h1 h2 h3 h4
  have : ∀ d ∈ [fetchDrv b!"a", userDrv [b!"a"]], ∀ d' ∈ [fetchDrv b!"a", userDrv [b!"a"]], drvPath zeroHash d = drvPath zeroHash d' → d = d' := by
    decide +kernel
  exact this d (hm i d h1) d' (hm j d' h2) (h3.trans h4.symm)

end Verif.Props
