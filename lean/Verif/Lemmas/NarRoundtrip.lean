import Verif.Lemmas.NarReader
import Verif.Spec.NarSession

namespace Verif.Nar
open Verif.GoLib Verif.Spec Verif.Wire

theorem str_eq (b : Bytes) : str b = packet b := by
  unfold str packet putUint64 pad
  simp [List.range, List.range.loop, Nat.shiftRight_eq_div_pow]

theorem str_pos (b : Bytes) : 8 ≤ (str b).length := by
  rw [str_eq]; simp [packet, putUint64_length]

theorem str_append_ne (a b rest : Bytes) : a ++ (str b ++ rest) ≠ [] := by
  intro h
  have := congrArg List.length h
  have := str_pos b
  simp only [List.length_append, List.length_nil] at *
  omega

/-- `st` hands over the headers `es` in order, with their contents in front of the stream, and
then reaches `Q`, however much of the contents the caller reads; behind the contents there is more. -/
def Runs {α : Type} (Q : Step RState Header Bool α → Prop) :
    List Entry → Step RState Header Bool α → Prop
  | [], st => Q st
  | e :: es, st => ∃ tail t l k, tail ≠ [] ∧ st = .yield (hdrOf e) ⟨⟨e.contents ++ tail, t⟩, e.contents.length, l⟩ k ∧
    ∀ s', Consume ⟨⟨e.contents ++ tail, t⟩, e.contents.length, l⟩ s' → Runs Q es (k true s')

theorem Runs.append {α : Type} {Q : Step RState Header Bool α → Prop} {es fs : List Entry}
    {st : Step RState Header Bool α} (h : Runs (Runs Q fs) es st) : Runs Q (es ++ fs) st := by
  induction es generalizing st with
  | nil => exact h
  | cons e es ih =>
    obtain ⟨tail, t, l, k, hne, rfl, h⟩ := h
    exact ⟨tail, t, l, k, hne, rfl, fun s' hc => ih (h s' hc)⟩

theorem Runs.mono {α : Type} {Q Q' : Step RState Header Bool α → Prop} {es : List Entry}
    {st : Step RState Header Bool α} (h : Runs Q es st) (hq : ∀ st, Q st → Q' st) : Runs Q' es st := by
  induction es generalizing st with
  | nil => exact hq st h
  | cons e es ih =>
    obtain ⟨tail, t, l, k, hne, rfl, h⟩ := h
    exact ⟨tail, t, l, k, hne, rfl, fun s' hc => ih (h s' hc)⟩

section
variable {β : Type}

theorem rd_bind {α : Type} {m : M Stream α} {d d' : Bytes} {t t' : Err} {a : α} (r l : Nat)
    (f : α → RState → Step RState Header Bool β) (h : m ⟨d, t⟩ = (.ok a, ⟨d', t'⟩)) :
    ((rd m).run ⟨⟨d, t⟩, r, l⟩).bind f = f a ⟨⟨d', t'⟩, r, l⟩ := by
  have e : ((rd m).run ⟨⟨d, t⟩, r, l⟩ : Step RState Header Bool α) =
      .done (m ⟨d, t⟩).1 ⟨(m ⟨d, t⟩).2, r, l⟩ := rfl
  rw [e, h]; rfl

theorem readString_str (b rest : Bytes) (t : Err) (max : Nat) (hm : b.length ≤ max)
    (h63 : b.length < 2 ^ 63) :
    readString max ⟨str b ++ rest, t⟩ = (.ok b, ⟨rest, t⟩) := by
  rw [str_eq]; exact readBytesFull_append b rest t max hm h63

theorem expectString_str (b rest : Bytes) (t : Err) (h63 : b.length < 2 ^ 63) :
    expectString b ⟨str b ++ rest, t⟩ = (.ok (), ⟨rest, t⟩) := by
  unfold expectString
  rw [readString_str b rest t _ (Nat.le_refl _) h63]
  simp

theorem readPlaceholder_str (rest : Bytes) (t : Err) :
    readPlaceholder ⟨str [] ++ rest, t⟩ = (.ok (), ⟨rest, t⟩) := by
  unfold readPlaceholder
  have := readString_str [] rest t 0 (by simp) (by simp)
  unfold readString at this
  rw [this]

theorem rd_tok (b rest : Bytes) (t : Err) (max r l : Nat) (hm : b.length ≤ max) (h63 : max < 2 ^ 63)
    (f : Bytes → RState → Step RState Header Bool β) :
    ((rd (readString max)).run ⟨⟨str b ++ rest, t⟩, r, l⟩).bind f = f b ⟨⟨rest, t⟩, r, l⟩ :=
  rd_bind r l f (readString_str b rest t max hm (by omega))

theorem rd_expect (b rest : Bytes) (t : Err) (r l : Nat) (h63 : b.length < 2 ^ 63)
    (f : Unit → RState → Step RState Header Bool β) :
    ((rd (expectString b)).run ⟨⟨str b ++ rest, t⟩, r, l⟩).bind f = f () ⟨⟨rest, t⟩, r, l⟩ :=
  rd_bind r l f (expectString_str b rest t h63)

theorem str_split (b : Bytes) : ∃ len pd, str b = len ++ b ++ pd ∧ pd = pad b.length ∧
    len = putUint64 b.length := ⟨_, _, str_eq b, rfl, rfl⟩

theorem closeContent_str (c rest : Bytes) (t : Err) (s' : RState)
    (hc : Consume ⟨⟨c ++ (pad c.length ++ rest), t⟩, c.length, c.length⟩ s') :
    ∃ r, closeContent.run s' = .done (.ok ()) ⟨⟨rest, t⟩, r, c.length⟩ := by
  obtain ⟨j, h1, h2, rfl⟩ := hc
  simp only [] at h1
  have e : bytesReaderClose (c.length - j) c.length ⟨(c ++ (pad c.length ++ rest)).drop j, t⟩
      = (.ok (), ⟨rest, t⟩) := by
    unfold bytesReaderClose
    rw [if_neg (by simp; omega)]
    simp only [List.drop_drop]
    rw [show j + (c.length - j) = c.length by omega, List.drop_left, readPadding_append]
  simp only [closeContent, e]
  exact ⟨_, rfl⟩

theorem runs_parseContents (p : Bytes) (ex : Bool) (c rest : Bytes) (t : Err) (r l : Nat)
    (hc : c.length < 2 ^ 63) (es : List Entry) (Q : Step RState Header Bool β → Prop)
    (f : Unit → RState → Step RState Header Bool β)
    (hf : ∀ r l, Runs Q es (f () ⟨⟨rest, t⟩, r, l⟩)) :
    Runs Q (⟨p, b!"regular", ex, [], c⟩ :: es)
      (((parseContents p ex b!"contents").run ⟨⟨str c ++ (str b!")" ++ rest), t⟩, r, l⟩).bind f) := by
  unfold parseContents
  rw [if_neg (by simp), Coro.run_bind, Step.bind_assoc]
  rw [str_eq, packet, List.append_assoc, List.append_assoc]
  rw [rd_bind r l _ (readUint64_append _ _ t c.length (isLE64_put _ (by omega)))]
  have h1 : ¬ c.length > 2 ^ 63 - 1 := by omega
  rw [if_neg h1]
  refine ⟨pad c.length ++ (str b!")" ++ rest), t, c.length, _, str_append_ne _ _ _, rfl, ?_⟩
  intro s' hcons
  obtain ⟨r', hcl⟩ := closeContent_str c _ t s' hcons
  have e : ∀ g : Unit → RState → Step RState Header Bool Unit, (closeContent.run s').bind g = g () ⟨⟨str b!")" ++ rest, t⟩, r', c.length⟩ := by
    intro g; rw [hcl]; rfl
  have e2 : (((closeContent.run s').bind (fun _ s => (rd (readString tokenLenMax) >>= expectClose).run s))).bind f
      = f () ⟨⟨rest, t⟩, r', c.length⟩ := by
    rw [e, Coro.run_bind, rd_tok _ _ _ _ _ _ (by simp [tokenLenMax]) (by simp [tokenLenMax])]
    rfl
  have := hf r' c.length
  rw [← e2] at this
  exact this

theorem runs_regular (p : Bytes) (ex : Bool) (c rest : Bytes) (t : Err) (r l : Nat)
    (hc : c.length < 2 ^ 63) (es : List Entry) (Q : Step RState Header Bool β → Prop)
    (f : Unit → RState → Step RState Header Bool β)
    (hf : ∀ r l, Runs Q es (f () ⟨⟨rest, t⟩, r, l⟩)) :
    Runs Q (⟨p, b!"regular", ex, [], c⟩ :: es)
      (((parseRegular p).run ⟨⟨(if ex then str b!"executable" ++ str b!"" else []) ++
        (str b!"contents" ++ (str c ++ (str b!")" ++ rest))), t⟩, r, l⟩).bind f) := by
  unfold parseRegular
  rw [Coro.run_bind, Step.bind_assoc]
  cases ex with
  | false =>
    simp only [Bool.false_eq_true, if_false, List.nil_append]
    rw [rd_tok _ _ _ _ _ _ (by simp) (by simp)]
    have e : ¬ (b!"contents" = b!"executable") := by decide
    rw [if_neg e]
    exact runs_parseContents p false c rest t r l hc es Q f hf
  | true =>
    simp only [if_true, List.append_assoc]
    rw [rd_tok _ _ _ _ _ _ (by simp) (by simp)]
    rw [if_pos rfl, Coro.run_bind, Step.bind_assoc, rd_bind r l _ (readPlaceholder_str _ t)]
    rw [Coro.run_bind, Step.bind_assoc, rd_tok _ _ _ _ _ _ (by simp [tokenLenMax]) (by simp [tokenLenMax])]
    exact runs_parseContents p true c rest t r l hc es Q f hf

theorem runs_symlink (p : Bytes) (tg rest : Bytes) (t : Err) (r l : Nat)
    (hc : tg.length ≤ pathLenMax) (es : List Entry) (Q : Step RState Header Bool β → Prop)
    (f : Unit → RState → Step RState Header Bool β)
    (hf : ∀ r l, Runs Q es (f () ⟨⟨rest, t⟩, r, l⟩)) :
    Runs Q (⟨p, b!"symlink", false, tg, []⟩ :: es)
      (((parseSymlink p).run ⟨⟨str b!"target" ++ (str tg ++ (str b!")" ++ rest)), t⟩, r, l⟩).bind f) := by
  unfold parseSymlink
  rw [Coro.run_bind, Step.bind_assoc, rd_expect _ _ _ _ _ (by simp)]
  rw [Coro.run_bind, Step.bind_assoc, rd_tok _ _ _ _ _ _ hc (by simp [pathLenMax])]
  refine ⟨str b!")" ++ rest, t, 0, _, str_append_ne [] _ _, rfl, ?_⟩
  intro s' hcons
  obtain ⟨j, h1, h2, rfl⟩ := hcons
  simp only [List.length_nil, Nat.le_zero] at h1
  subst h1
  have e2 : ((rd (readString tokenLenMax) >>= expectClose).run ⟨⟨str b!")" ++ rest, t⟩, 0, 0⟩).bind f
      = f () ⟨⟨rest, t⟩, 0, 0⟩ := by
    rw [Coro.run_bind, rd_tok _ _ _ _ _ _ (by simp [tokenLenMax]) (by simp [tokenLenMax])]
    rfl
  have := hf 0 0
  rw [← e2] at this
  exact this

mutual
theorem runs_node (tr : Tree) (hall : tr.All NameRd NodeRd) (fuel : Nat) (cs : List Bytes)
    (hcs : ∀ c ∈ cs, Good c) (rest : Bytes) (t : Err) (r l : Nat)
    (hfuel : (tr.node ++ rest).length < fuel) (es : List Entry) (Q : Step RState Header Bool β → Prop)
    (f : Unit → RState → Step RState Header Bool β)
    (hf : ∀ r l, Runs Q es (f () ⟨⟨rest, t⟩, r, l⟩)) :
    Runs Q (tr.entriesAt (absPath cs) ++ es)
      (((parseNode fuel (absPath cs)).run ⟨⟨tr.node ++ rest, t⟩, r, l⟩).bind f) := by
  obtain ⟨fuel, rfl⟩ : ∃ k, fuel = k + 1 := ⟨fuel - 1, by omega⟩
  cases tr with
  | regular ex c =>
    simp only [Tree.node, Tree.entriesAt, parseNode, List.append_assoc, List.cons_append, List.nil_append]
    simp only [Tree.All, NodeRd] at hall
    rw [Coro.run_bind, Step.bind_assoc, rd_expect _ _ _ _ _ (by simp)]
    rw [Coro.run_bind, Step.bind_assoc, rd_expect _ _ _ _ _ (by simp)]
    rw [Coro.run_bind, Step.bind_assoc, rd_tok _ _ _ _ _ _ (by simp [tokenLenMax]) (by simp [tokenLenMax])]
    rw [if_pos rfl]
    exact runs_regular (absPath cs) ex c rest t r l hall es Q f hf
  | symlink tg =>
    simp only [Tree.node, Tree.entriesAt, parseNode, List.append_assoc, List.cons_append, List.nil_append]
    simp only [Tree.All, NodeRd] at hall
    rw [Coro.run_bind, Step.bind_assoc, rd_expect _ _ _ _ _ (by simp)]
    rw [Coro.run_bind, Step.bind_assoc, rd_expect _ _ _ _ _ (by simp)]
    rw [Coro.run_bind, Step.bind_assoc, rd_tok _ _ _ _ _ _ (by simp [tokenLenMax]) (by simp [tokenLenMax])]
    have e : ¬ (b!"symlink" = b!"regular") := by decide
    rw [if_neg e, if_pos rfl]
    exact runs_symlink (absPath cs) tg rest t r l hall es Q f hf
  | directory ents =>
    simp only [Tree.node, Tree.entriesAt, parseNode, List.append_assoc, List.cons_append]
    simp only [Tree.All] at hall
    have hlen : (ents.nodes ++ (str b!")" ++ rest)).length < fuel := by
      simp only [Tree.node, List.length_append] at hfuel ⊢
      have := str_pos b!"("
      omega
    rw [Coro.run_bind, Step.bind_assoc, rd_expect _ _ _ _ _ (by simp)]
    rw [Coro.run_bind, Step.bind_assoc, rd_expect _ _ _ _ _ (by simp)]
    rw [Coro.run_bind, Step.bind_assoc, rd_tok _ _ _ _ _ _ (by simp [tokenLenMax]) (by simp [tokenLenMax])]
    have e : ¬ (b!"directory" = b!"regular") := by decide
    have e' : ¬ (b!"directory" = b!"symlink") := by decide
    rw [if_neg e, if_neg e', if_pos rfl]
    refine ⟨ents.nodes ++ (str b!")" ++ rest), t, 0, _, str_append_ne _ _ _, rfl, ?_⟩
    intro s' hcons
    obtain ⟨j, h1, h2, rfl⟩ := hcons
    simp only [List.length_nil, Nat.le_zero] at h1
    subst h1
    exact runs_entries ents hall.2.2 fuel cs hcs rest t 0 0 hlen es Q f hf
theorem runs_entries (ents : Entries) (hall : ents.All NameRd NodeRd) (fuel : Nat) (cs : List Bytes)
    (hcs : ∀ c ∈ cs, Good c) (rest : Bytes) (t : Err) (r l : Nat)
    (hfuel : (ents.nodes ++ (str b!")" ++ rest)).length < fuel) (es : List Entry)
    (Q : Step RState Header Bool β → Prop)
    (f : Unit → RState → Step RState Header Bool β)
    (hf : ∀ r l, Runs Q es (f () ⟨⟨rest, t⟩, r, l⟩)) :
    Runs Q (ents.entriesAt (absPath cs) ++ es)
      (((parseEntries fuel (absPath cs)).run ⟨⟨ents.nodes ++ (str b!")" ++ rest), t⟩, r, l⟩).bind f) := by
  obtain ⟨fuel, rfl⟩ : ∃ k, fuel = k + 1 := ⟨fuel - 1, by omega⟩
  cases ents with
  | nil =>
    simp only [Entries.nodes, Entries.entriesAt, parseEntries, List.nil_append]
    rw [Coro.run_bind, Step.bind_assoc, rd_tok _ _ _ _ _ _ (by simp [tokenLenMax]) (by simp [tokenLenMax])]
    have e : ¬ (b!")" = b!"entry") := by decide
    rw [if_neg e, if_pos rfl]
    exact hf r l
  | cons n tr ents =>
    simp only [Entries.nodes, Entries.entriesAt, parseEntries, List.append_assoc]
    simp only [Entries.All] at hall
    obtain ⟨⟨hn1, hn2, hn3⟩, ht, hrest⟩ := hall
    have hp1 := str_pos b!"entry"
    have hlen1 : (tr.node ++ (str b!")" ++ (ents.nodes ++ (str b!")" ++ rest)))).length < fuel := by
      simp only [Entries.nodes, List.length_append] at hfuel ⊢; omega
    have hlen2 : (ents.nodes ++ (str b!")" ++ rest)).length < fuel := by
      simp only [Entries.nodes, List.length_append] at hfuel ⊢; omega
    rw [Coro.run_bind, Step.bind_assoc, rd_tok _ _ _ _ _ _ (by simp [tokenLenMax]) (by simp [tokenLenMax])]
    rw [if_pos rfl]
    rw [Coro.run_bind, Step.bind_assoc, rd_expect _ _ _ _ _ (by simp)]
    rw [Coro.run_bind, Step.bind_assoc, rd_expect _ _ _ _ _ (by simp)]
    rw [Coro.run_bind, Step.bind_assoc, rd_tok _ _ _ _ _ _ (by simpa [nameLenMax] using hn3) (by simp [nameLenMax])]
    have hv : isValidNodeName n = true := (isValidNodeName_iff n).2 ⟨hn1.2.2.2.1, hn1.2.2.2.2⟩
    rw [if_neg (by simp [hv])]
    rw [Coro.run_bind, Step.bind_assoc, rd_expect _ _ _ _ _ (by simp)]
    rw [Coro.run_bind, Step.bind_assoc, pathJoin_good hcs (nameOk_good hn1), ← absPath_snoc cs n hcs]
    have hcs' : ∀ c ∈ cs ++ [n], Good c := by
      intro c hc
      rcases List.mem_append.1 hc with h | h
      · exact hcs c h
      · rw [List.mem_singleton.1 h]; exact (nameOk_good hn1)
    refine runs_node tr ht fuel (cs ++ [n]) hcs' _ t r l hlen1 _ Q _ ?_
    intro r' l'
    rw [Coro.run_bind, Step.bind_assoc, rd_expect _ _ _ _ _ (by simp)]
    rw [if_neg hn2]
    exact runs_entries ents hrest fuel cs hcs rest t r' l' hlen2 es Q f hf
end

end

end Verif.Nar
