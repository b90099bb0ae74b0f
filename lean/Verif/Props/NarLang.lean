import Verif.Lemmas.NarComplete
import Verif.Props.NarReader

/-!
# C100: exactly which archives a reader accepts
-/

namespace Verif.Props
open Verif Verif.Nar Verif.GoLib Verif.Spec Verif.Wire

theorem rinv_reads {t : Err} {r : Reader} (h : RInv t r) (ks : List Nat) : RInv t (r.reads ks).2 := by
  induction ks generalizing r with
  | nil => exact h
  | cons k ks ih => unfold Reader.reads; exact ih (rinv_read h k)

theorem rinv_session {t : Err} {r : Reader} (h : RInv t r) (plan : List (List Nat)) :
    RInv t (r.session plan).2 := by
  induction plan generalizing r with
  | nil => exact h
  | cons ks plan ih => unfold Reader.session; exact ih (rinv_reads (rinv_next h) ks)

theorem session_length (r : Reader) (plan : List (List Nat)) : (r.session plan).1.length = plan.length := by
  induction plan generalizing r with
  | nil => rfl
  | cons ks plan ih => simp only [Reader.session, List.length_cons, ih]

/-- what a session on an accepted stream returns -/
theorem accepts_session {s s' : Stream} {r : Reader} (hnew : newReader s = (.ok r, s')) (xs : List Seen)
    (rest : Bytes) (hacc : Accepts s.term s'.data xs rest) (plan : List (List Nat))
    (hlen : xs.length = plan.length) :
    (r.session plan).1 =
      List.zipWith (fun x ks => (.ok (hdrSeen x), seenReads x.2 x.1.contents ks)) xs plan ∧
    ∃ r', (r.session plan).2.next = (.err .eof, r') ∧ r'.st.stream.data = rest := by
  obtain ⟨htok, hterm, rfl⟩ := (newReader_iff s r s').1 hnew
  obtain ⟨hacc, hord⟩ := hacc
  rw [inOrder_iff] at hord
  have bindpure : ∀ st : Step RState Header Bool Unit,
      st.bind (fun _ s => Step.done (.ok ()) s) = st := by
    intro st
    induction st with
    | done r s => rcases r with _ | _ | _ <;> rfl
    | yield y s k ih => rw [Step.bind_yield]; congr 1; funext i s'; exact ih i s'
  have key : ∀ (Q : Step RState Header Bool Unit → Prop)
      (_ : Tr Q xs (((parseNode (s'.data.length + 1) b!"/").run ⟨s', 0, 0⟩).bind
        (fun _ s => Step.done (.ok ()) s)))
      (_ : ∀ st, Q st → (st = .done (.ok ()) (Step.state st) ∨ st = .done (.err .eof) (Step.state st)) ∧
        (Step.state st).stream.data = rest),
      ((⟨⟨s', 0, 0⟩, .start, none, [], false⟩ : Reader).session plan).1 =
        List.zipWith (fun x ks => (.ok (hdrSeen x), seenReads x.2 x.1.contents ks)) xs plan ∧
      ∃ r', ((⟨⟨s', 0, 0⟩, .start, none, [], false⟩ : Reader).session plan).2.next = (.err .eof, r') ∧
        r'.st.stream.data = rest := by
    intro Q hq hQ
    rw [bindpure] at hq
    obtain ⟨h1, h2, h3, st', h4, h5⟩ := tr_session xs plan
      ⟨⟨s', 0, 0⟩, .start, none, [], false⟩ _ rfl rfl rfl hq hord hlen.symm
    refine ⟨h1, ?_⟩
    generalize (Reader.session _ plan).2 = q at h2 h3 h4 ⊢
    obtain ⟨hst, hd⟩ := hQ st' h5
    have e : q.next = q.receive st' := by
      unfold Reader.next
      rw [h2]
      simp only []
      rw [if_neg (by simp [h3]), h4]
    rw [e]
    rcases hst with hst | hst <;> rw [hst] <;> exact ⟨_, rfl, hd⟩
  rcases hacc with ⟨es, hr, rfl⟩ | ⟨ht, rfl, hcut⟩
  · refine key (fun st => ∃ r l, st = .done (.ok ()) ⟨⟨rest, s'.term⟩, r, l⟩) ?_ ?_
    · have := compl_node (β := Unit) (Q := fun st => ∃ r l, st = .done (.ok ()) ⟨⟨rest, s'.term⟩, r, l⟩)
        hr (s'.data.length + 1) s'.term 0 0 (by omega) [] (fun _ s => .done (.ok ()) s)
        (fun r l => ⟨r, l, rfl⟩)
      rw [List.append_nil] at this
      exact this
    · rintro st ⟨r, l, rfl⟩; exact ⟨.inl rfl, rfl⟩
  · refine key IsEof ?_ ?_
    · have := cut_node (β := Unit) hcut (s'.data.length + 1) 0 0 (by omega) (fun _ s => .done (.ok ()) s)
      rw [← hterm] at ht
      rw [← ht] at this
      exact this
    · rintro st ⟨r, l, rfl⟩; exact ⟨.inr rfl, rfl⟩

/-- C100: exactly these streams can be read to `io.EOF`. Opening a reader and calling `Next` as often as
`plan` is long, with any `Read` calls in between, succeeds with the headers `hds`, and the call of `Next`
after that answers `io.EOF` with `rest` left in the underlying reader, if and only if the stream starts
with the magic followed by an archive in the relaxed format with these headers, in order, up to `rest`, or
by one cut off at one of the listed places. -/
theorem C100_language (s : Stream) (plan : List (List Nat)) (hds : List Header) (rest : Bytes) :
    (∃ r s' r', newReader s = (.ok r, s') ∧ (r.session plan).1.map Prod.fst = hds.map Call.ok ∧
      (r.session plan).2.next = (.err .eof, r') ∧ r'.st.stream.data = rest) ↔
    ∃ d xs, Tok b!"nix-archive-1" s.data d ∧ Accepts s.term d xs rest ∧ hds = xs.map hdrSeen ∧
      xs.length = plan.length := by
  constructor
  · rintro ⟨r, s', r', hnew, hheads, hnext, rfl⟩
    obtain ⟨htok, hterm, rfl⟩ := (newReader_iff s r s').1 hnew
    have hpar := ((sound_parse (s'.data.length + 1)).1 b!"/" ⟨s', 0, 0⟩ [])
    obtain ⟨cs, h1, h2, h3⟩ := session_sound' plan _ r' [] hds _ rfl rfl rfl hpar hheads hnext
    have hlen : hds.length = plan.length := by
      have := congrArg List.length hheads
      simp only [List.length_map] at this
      rw [← this, session_length]
    rcases h3 with ⟨es, e1, hr⟩ | ⟨e0, et, xs, e1, hcut⟩
    · have hh : hds = (es.map full).map hdrSeen := by
        rw [← h1]
        simp only [List.nil_append] at e1
        rw [e1, List.map_map, List.map_map]
        rfl
      refine ⟨s'.data, es.map full, htok, ⟨.inl ⟨es, hr, rfl⟩, ?_⟩, hh, ?_⟩
      · rw [inOrder_iff, ← ordHdr_seen, ← hh]; exact h2
      · rw [← hlen, hh]; simp
    · have hh : hds = xs.map hdrSeen := by
        rw [← h1]
        simp only [List.nil_append] at e1
        rw [e1, List.map_map]
        rfl
      have hterm' : s.term = .eof := by
        have := (rinv_next (rinv_session (rinv_new hnew) plan)).term
        rw [hnext] at this
        rw [← this]; exact et
      refine ⟨s'.data, xs, htok, ⟨.inr ⟨hterm', e0, hcut⟩, ?_⟩, hh, ?_⟩
      · rw [inOrder_iff, ← ordHdr_seen, ← hh]; exact h2
      · rw [← hlen, hh]; simp
  · rintro ⟨d, xs, htok, hacc, rfl, hlen⟩
    have hnew := (newReader_iff s ⟨⟨⟨d, s.term⟩, 0, 0⟩, .start, none, [], false⟩ ⟨d, s.term⟩).2 ⟨htok, rfl, rfl⟩
    obtain ⟨h1, r', h2, h3⟩ := accepts_session hnew xs rest hacc plan hlen
    refine ⟨_, _, r', hnew, ?_, h2, h3⟩
    rw [h1]
    clear h1 h2 h3 hacc
    induction xs generalizing plan with
    | nil => rfl
    | cons x xs ih =>
      cases plan with
      | nil => simp at hlen
      | cons ks plan =>
        simp only [List.zipWith_cons_cons, List.map_cons]
        rw [ih plan (by simpa using hlen)]

/-- C100: and the `Read` calls in between return the contents of the files: all of them for a complete
archive, what is there for one that is cut off. -/
theorem C100_contents (s s' : Stream) (r : Reader) (hnew : newReader s = (.ok r, s')) (xs : List Seen)
    (rest : Bytes) (hacc : Accepts s.term s'.data xs rest) (plan : List (List Nat))
    (hlen : xs.length = plan.length) :
    (r.session plan).1 =
      List.zipWith (fun x ks => (.ok (hdrSeen x), seenReads x.2 x.1.contents ks)) xs plan :=
  (accepts_session hnew xs rest hacc plan hlen).1

theorem tok_str (t rest : Bytes) : Tok t (str t ++ rest) rest := by
  refine ⟨_, List.replicate ((8 - t.length % 8) % 8) 0, ?_, rfl, .inl (by simp)⟩
  rfl

/-- A directory with an unknown token and an empty file, cut off in the middle of the length of a name:
accepted, with the two headers. -/
example : Accepts .eof
    (str b!"(" ++ (str b!"type" ++ (str b!"directory" ++ (str b!"junk" ++ (str b!"entry" ++
      (str b!"(" ++ (str b!"name" ++ (str b!"a" ++ (str b!"node" ++ (str b!"(" ++ (str b!"type" ++
      (str b!"regular" ++ (str b!"contents" ++ [3, 0, 0, 0, 0, 0, 0, 0, 120, 121])))))))))))))
    [(⟨b!"/", b!"directory", false, [], []⟩, 0), (⟨b!"/a", b!"regular", false, [], [120, 121]⟩, 3)] [] := by
  refine ⟨.inr ⟨rfl, rfl, ?_⟩, ?_⟩
  · refine .directory ⟨_, tok_str _ _, _, tok_str _ _, _, tok_str _ _, rfl⟩ ?_
    refine .unknown (tok_str _ _) (by decide) (by decide) (by decide) ?_
    refine .node (n := b!"a") ⟨_, tok_str _ _, _, tok_str _ _, _, tok_str _ _, _, tok_str _ _, _,
      tok_str _ _, rfl⟩ (by decide) (by decide) (by decide) ?_
    rw [show pathJoin b!"/" b!"a" = b!"/a" by decide]
    exact .contents (x := []) (n := 3) (.inl rfl) ⟨_, tok_str _ _, _, tok_str _ _, _, tok_str _ _, _,
      tok_str _ _, rfl⟩ (by decide) (by decide) (by decide)
  · simp only [List.map_cons, List.map_nil, InOrder]
    exact ⟨by decide, trivial⟩

/-- The entry called `)` ends the directory: what follows is left in the underlying reader. -/
example : Accepts .io
    (str b!"(" ++ (str b!"type" ++ (str b!"directory" ++ (str b!"entry" ++
      (str b!"(" ++ (str b!"name" ++ (str b!")" ++ (str b!"node" ++ (str b!"(" ++ (str b!"type" ++
      (str b!"symlink" ++ (str b!"target" ++ (str b!"x" ++ (str b!")" ++ (str b!")" ++ [1, 2])))))))))))))))
    [(⟨b!"/", b!"directory", false, [], []⟩, 0), (⟨b!"/)", b!"symlink", false, b!"x", []⟩, 0)] [1, 2] := by
  refine ⟨.inl ⟨[⟨b!"/", b!"directory", false, [], []⟩, ⟨b!"/)", b!"symlink", false, b!"x", []⟩], ?_, rfl⟩, ?_⟩
  · refine .directory ⟨_, tok_str _ _, _, tok_str _ _, _, tok_str _ _, rfl⟩ ?_
    refine .lastEntry ⟨_, tok_str _ _, _, tok_str _ _, _, tok_str _ _, _, tok_str _ _, _,
      tok_str _ _, rfl⟩ ?_ (tok_str _ _)
    rw [show pathJoin b!"/" b!")" = b!"/)" by decide]
    exact .symlink ⟨_, tok_str _ _, _, tok_str _ _, _, tok_str _ _, _, tok_str _ _, _, tok_str _ _, _,
      tok_str _ _, rfl⟩ (by decide)
  · simp only [List.map_cons, List.map_nil, InOrder]
    exact ⟨by decide, trivial⟩

end Verif.Props
