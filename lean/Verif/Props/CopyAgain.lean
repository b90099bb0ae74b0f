import Verif.Props.NarSame

/-!
# Copying a copy of an archive (C167)
-/

namespace Verif.Props
open Verif Verif.Nar Verif.GoLib Verif.Spec Verif.Wire

/-- C167: if an archive, from whatever stream, was copied without an error, no path came twice in a row and no entry is called `)`, then the copy
can be copied too: the same headers and contents are copied, and the same bytes are written. -/
theorem C167_again (s s' : Stream) (r : Reader) (hr : newReader s = (.ok r, s')) (w : Writer) (s0 : Sink)
    (hw : newWriter ⟨[], none⟩ = (.ok w, s0)) (l : List (Header × Bytes)) (w' : Writer) (h : CopyNar r w l w')
    (hd : NoRepeat (l.map (·.1.path))) (hp : ∀ x ∈ l, b!")" ∉ splitByte x.1.path 47) (rest : Bytes) (e : Err) :
    ∃ r2 s2 w2, newReader ⟨w'.st.sink.out ++ rest, e⟩ = (.ok r2, s2) ∧ CopyNar r2 w l w2 ∧ w2.st.sink.out = w'.st.sink.out := by
  obtain ⟨⟨ops, ⟨i1, i2⟩, i3, _, i4, i5⟩, rops, j1, _⟩ := copy_ops h
  have hc := C25_paths_clean _ s' r hr rops
  have hk := C31_headers_consistent _ s' r hr rops
  rw [j1] at hc hk
  obtain ⟨t, g1, g2, g3⟩ := C22_valid_nar_partial w s0 hw ops (fun x hx => ⟨by
    rcases (hk x (i4 x hx)).2.1 with h | h | h
    · exact .inl h
    · exact .inr (.inr h)
    · exact .inr (.inl h), (hc x (i4 x hx)).2.1, (hk x (i4 x hx)).2.2.1, by have := (hk x (i4 x hx)).2.2.2.1; omega⟩) i5
    (by rw [i3]; exact hd) i1
  rw [i3] at g3
  have hmem : ∀ x ∈ t.entriesAt b!"/", said x ∈ l := fun x hx => g3 ▸ List.mem_map_of_mem hx
  have hpaths := (tree_paths (fun n hn => nameOk_good hn.1) t g1 [] (by simp)).1
  have hrd : t.All NameRd NodeRd := by
    refine tree_rd t g1 [] (by simp) (fun x hx => ?_) (fun x hx => ?_)
    · obtain ⟨ds, q1, q2⟩ := hpaths x hx
      simp only [List.nil_append] at q1 q2
      have a1 := hp _ (hmem x hx)
      have a2 := (hk (said x).1 (List.mem_map_of_mem (hmem x hx))).2.2.2.2.2
      intro c hcm
      rw [q1, cleanComps_absPath q2] at hcm
      have hin : c ∈ splitByte x.path 47 := by
        rw [q1, splitByte_absPath q2, if_neg (by rintro rfl; cases hcm)]
        exact List.mem_cons_of_mem _ hcm
      exact ⟨fun e => a1 (e ▸ hin), a2 c hin⟩
    · exact (hk (said x).1 (List.mem_map_of_mem (hmem x hx))).2.2.2.2.1
  rw [i2] at g2
  obtain ⟨r2, s2, w2, k1, k2, k3⟩ := C165_copy_partial t hrd g1 rest e w s0 hw
  rw [g3] at k2
  exact ⟨r2, s2, w2, by rw [g2]; exact k1, k2, by rw [k3, g2]⟩

/-- The hypotheses: the archive of a tree is copied. -/
example : ∃ r s' w', newReader ⟨sampleTree.nar ++ b!"more", .eof⟩ = (.ok r, s') ∧
    CopyNar r freshWriter ((sampleTree.entriesAt b!"/").map said) w' ∧ NoRepeat (((sampleTree.entriesAt b!"/").map said).map (·.1.path)) ∧
    ∀ x ∈ (sampleTree.entriesAt b!"/").map said, b!")" ∉ splitByte x.1.path 47 := by
  obtain ⟨r, s', w', h1, h2, _⟩ := C165_copy_partial sampleTree
    (by simp only [sampleTree, Tree.All, Entries.All, NodeRd, Entries.names, NameRd]; decide)
    (by simp only [sampleTree, Tree.All, Entries.All, NodeWr, Entries.names, NameWr]; decide) b!"more" .eof freshWriter _ newWriter_fresh
  exact ⟨r, s', w', h1, h2, by decide +kernel, by decide +kernel⟩

/-- Not quite an archive: the directory `d` has an entry called `)`, and its closing parenthesis is missing. -/
def openRest : Bytes := ([b!"(", b!"type", b!"directory", b!"entry", b!"(", b!"name", b!"d", b!"node",
  b!"(", b!"type", b!"directory", b!"entry", b!"(", b!"name", b!")", b!"node", b!"(", b!"type", b!"symlink", b!"target", b!"x", b!")", b!")",
  b!")", b!"entry", b!"(", b!"name", b!"e", b!"node", b!"(", b!"type", b!"symlink", b!"target", b!"y", b!")", b!")", b!")"]).flatMap str

/-- see `openRest` -/
def openStream : Bytes := str b!"nix-archive-1" ++ openRest

/-- What is written for it. -/
def openTree : Tree := .directory (.cons b!"d" (.directory (.cons b!")" (.symlink b!"x") .nil)) (.cons b!"e" (.symlink b!"y") .nil))

/-- C167: without the condition on names it is false. This stream is copied without an error, and so is the copy, but the second copy has an entry
less. -/
theorem C167_needs_paren : ∃ r s' w' r2 s2 w2, newReader ⟨openStream, .eof⟩ = (.ok r, s') ∧
    CopyNar r freshWriter ((openTree.entriesAt b!"/").map said) w' ∧ w'.st.sink.out = openTree.nar ∧
    NoRepeat (((openTree.entriesAt b!"/").map said).map (·.1.path)) ∧
    newReader ⟨openTree.nar, .eof⟩ = (.ok r2, s2) ∧ CopyNar r2 freshWriter (((openTree.entriesAt b!"/").map said).take 3) w2 ∧
    w2.st.sink.out ≠ openTree.nar := by
  have hr : newReader ⟨openStream, .eof⟩ =
      (.ok ⟨⟨⟨openRest, .eof⟩, 0, 0⟩, .start, none, [], false⟩, ⟨openRest, .eof⟩) := by
    unfold newReader openStream narVersionMagic1
    have := expectString_str b!"nix-archive-1" openRest .eof (by simp)
    rw [this]
  refine ⟨_, _, ((((freshWriter.writeHeader ⟨b!"/", b!"directory", [], 0, false⟩).2.writeHeader
    ⟨b!"/d", b!"directory", [], 0, false⟩).2.writeHeader ⟨b!"/d/)", b!"symlink", b!"x", 0, false⟩).2.writeHeader
    ⟨b!"/e", b!"symlink", b!"y", 0, false⟩).2.close.2, _, _, (((freshWriter.writeHeader ⟨b!"/", b!"directory", [], 0, false⟩).2.writeHeader
    ⟨b!"/d", b!"directory", [], 0, false⟩).2.writeHeader ⟨b!"/d/)", b!"symlink", b!"x", 0, false⟩).2.close.2,
    hr, ?_, ?_, ?_, newReader_nar' _ _, ?_, ?_⟩
  · show CopyNar _ _ [(⟨b!"/", b!"directory", [], 0, false⟩, []), (⟨b!"/d", b!"directory", [], 0, false⟩, []),
      (⟨b!"/d/)", b!"symlink", b!"x", 0, false⟩, []), (⟨b!"/e", b!"symlink", b!"y", 0, false⟩, [])] _
    rw [copy_empty (by decide +kernel) (by decide +kernel) (by decide +kernel),
      copy_empty (by decide +kernel) (by decide +kernel) (by decide +kernel),
      copy_empty (by decide +kernel) (by decide +kernel) (by decide +kernel),
      copy_empty (by decide +kernel) (by decide +kernel) (by decide +kernel)]
    exact copy_done (by decide +kernel) (by decide +kernel)
  · decide +kernel
  · decide +kernel
  · show CopyNar _ _ [(⟨b!"/", b!"directory", [], 0, false⟩, []), (⟨b!"/d", b!"directory", [], 0, false⟩, []),
      (⟨b!"/d/)", b!"symlink", b!"x", 0, false⟩, [])] _
    rw [copy_empty (by decide +kernel) (by decide +kernel) (by decide +kernel),
      copy_empty (by decide +kernel) (by decide +kernel) (by decide +kernel),
      copy_empty (by decide +kernel) (by decide +kernel) (by decide +kernel)]
    exact copy_done (by decide +kernel) (by decide +kernel)
  · decide +kernel

end Verif.Props
