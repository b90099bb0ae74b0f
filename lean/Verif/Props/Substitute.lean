import Verif.Spec.Substitute
import Verif.Props.NarinfoTrust
import Verif.Props.Pipeline
import Verif.Props.NarParenPaths
import Verif.Props.NarValidExact

/-!
# From the publisher's file system to the client (C118, C126)
-/

namespace Verif.Props
open Verif.Nar Verif.Narinfo Verif.GoLib Verif.Nixhash Verif.Signature Verif.Spec Verif.Wire

/-- C118: exactly which dumps are read back. When `DumpPathFilter` returns nil, with the tree that the filter left, the reader
returns the headers of this tree and then `io.EOF` if and only if its names and link targets are within the limits of the reader and
no entry comes after one called `)` unless it is inside of it. -/
theorem C118_exact (filter : Option Filter) (path : Bytes) (root : FNode) (hok : root.Ok NameOk)
    (h : (dumpPathFilter filter path root ⟨[], none⟩).1 = .ok ())
    (hfit : ∀ t, root.prune (keeps filter) path b!"/" = some t → t.All NameFits NodeFits) (rest : Bytes) (e : Err) :
    ∃ t, root.prune (keeps filter) path b!"/" = some t ∧
      ∀ plan : List (List Nat), plan.length = (t.entriesAt b!"/").length →
        ((∃ r s' r', newReader ⟨(dumpPathFilter filter path root ⟨[], none⟩).2.out ++ rest, e⟩ = (.ok r, s') ∧
            (r.session plan).1.map Prod.fst = (t.entriesAt b!"/").map (Call.ok ∘ hdrOf) ∧
            (r.session plan).2.next = (.err .eof, r')) ↔
          t.All NameShort NodeRd ∧ NothingAfterParen ((t.entriesAt b!"/").map Entry.path)) := by
  obtain ⟨t, ht, he⟩ := (C35_exact filter path root hok).2 h
  refine ⟨t, ht, fun plan hplan => ?_⟩
  rw [he, C23_exact t (hfit t ht) rest e plan hplan, C23_condition t (hfit t ht)]

/-- C126: the client has a `.narinfo` text from anywhere, which is parsed, passes `Check` and is verified with a trusted key, and bytes
from anywhere that have the SHA-256 in it. If nobody can sign but the publisher, then for one of the things that were published, with the
store path, the size and the references in the text: either these bytes are other bytes than the archive with the same
SHA-256, or reading them with `Reader` gives exactly the files that the publisher dumped: all headers in order, the contents (for any
sizes of `Read` calls), then `io.EOF`. -/
theorem C126_substitute (sha256 : Bytes → Bytes) (E : Ed25519) (keys : List Named) (published : List Publication)
    (honest : ∀ p ∈ published, p.Honest sha256)
    (hforge : ∀ k ∈ keys, ∀ msg sg, E.verify k.data msg sg = true → ∃ p ∈ published, p.info.fingerprint = .ok msg)
    (s : Stream) (n : NarInfo) (f : Bytes) (hp : parse s = .ok n) (hc : n.check = .ok ()) (hf : n.fingerprint = .ok f)
    (hv : verifyFirst E f n.signatures keys = .ok true)
    (b : Bytes) (hb : n.narHash.map (·.hash) = some ⟨SHA256, sha256 b⟩) :
    ∃ p ∈ published, n.storePath = p.info.storePath ∧ n.references = p.info.references ∧ n.narSize = p.nar.length ∧
      ((b ≠ p.nar ∧ sha256 b = sha256 p.nar) ∨
        ∃ t, p.root.prune (keeps p.filter) p.path b!"/" = some t ∧
          ∀ plan : List (List Nat), plan.length = (t.entriesAt b!"/").length →
            ∃ r s' r', newReader ⟨b, .eof⟩ = (.ok r, s') ∧
              (r.session plan).1 = List.zipWith (fun en ks => (.ok (hdrOf en), readResults en.contents ks)) (t.entriesAt b!"/") plan ∧
              (r.session plan).2.next = (.err .eof, r')) := by
  obtain ⟨m, hm, h1, h2, h3, h4⟩ := C119_trust E keys (published.map (·.info))
    (by intro m hm; obtain ⟨p, hp, rfl⟩ := List.mem_map.1 hm; exact (honest p hp).strict)
    (by intro k hk msg sg hs; obtain ⟨p, hp, hfp⟩ := hforge k hk msg sg hs; exact ⟨_, List.mem_map.2 ⟨p, hp, rfl⟩, hfp⟩)
    s n f hp hc hf hv
  obtain ⟨p, hpm, rfl⟩ := List.mem_map.1 hm
  have ho := honest p hpm
  refine ⟨p, hpm, h1, h4, h3.trans ho.size, ?_⟩
  have heq : sha256 b = sha256 p.nar := by
    rw [hb, ho.hash] at h2
    simpa using h2
  by_cases hbn : b = p.nar
  · right
    obtain ⟨t, ht, he⟩ := (C35_exact p.filter p.path p.root ho.names).2 ho.dumped
    obtain ⟨hs, hn⟩ := ho.readable t ht
    have hfit : t.All NameFits NodeFits := by
      refine tree_weaken (fun n hn => ⟨hn.1, by have := hn.2; omega⟩) (fun u hu => ?_) t hs
      cases u with
      | regular x c => simp only [NodeRd, NodeFits] at hu ⊢; omega
      | symlink l => simp only [NodeRd, NodeFits] at hu ⊢; omega
      | directory es => trivial
    refine ⟨t, ht, fun plan hplan => ?_⟩
    obtain ⟨r, s', q1, q2, r', q3⟩ := C23_read_last t hs ((C23_condition t hfit).2 hn) [] .eof plan hplan
    refine ⟨r, s', r', ?_, q2, q3⟩
    rw [← q1, hbn, List.append_nil]
    exact congrArg (fun x => newReader ⟨x, .eof⟩) he
  · exact .inl ⟨hbn, heq⟩

/-- `sampleTree` is published as `strictInfo` with the size of its archive; the hash function is one that gives the hash in `strictInfo`
for everything. -/
def samplePublication : Publication := ⟨none, b!"/x", onDisk sampleTree, { strictInfo with narSize := sampleTree.nar.length }⟩
def samplePrint : Bytes := match samplePublication.info.fingerprint with | .ok t => t | _ => []
def sampleText : Bytes := match samplePublication.info.string with | .ok t => t | _ => []
def onlySample : Ed25519 := { toyEd with verify := fun _ msg _ => msg == samplePrint }

theorem samplePublication_nar : samplePublication.nar = sampleTree.nar := by
  have hs : sampleTree.All NameWr NodeWr := by
    simp only [sampleTree, Tree.All, Entries.All, NodeWr, NameWr, Entries.names]
    decide
  simp only [Publication.nar, samplePublication]
  rw [(C35_dump_partial sampleTree hs b!"/x").2]

theorem samplePublication_ok : samplePublication.root.Ok NameOk := by
  simp only [samplePublication, sampleTree, onDisk, onDisk', FNode.Ok, FEntries.Ok, FEntries.names]
  decide

theorem samplePublication_readable (t : Tree) (ht : samplePublication.root.prune (keeps samplePublication.filter) samplePublication.path b!"/" = some t) :
    t.All NameShort NodeRd ∧ NothingAfterParen ((t.entriesAt b!"/").map Entry.path) := by
  have hs : sampleTree.All NameWr NodeWr := by
    simp only [sampleTree, Tree.All, Entries.All, NodeWr, NameWr, Entries.names]
    decide
  have hshort : sampleTree.All NameShort NodeRd := by
    simp only [sampleTree, Tree.All, Entries.All, NameShort, NodeRd, Entries.names]
    decide
  have hparen : NothingAfterParen ((sampleTree.entriesAt b!"/").map Entry.path) := by
    unfold NothingAfterParen
    decide +kernel
  have ht' := (onDisk_facts sampleTree hs b!"/x" b!"/").2.2.symm.trans ht
  rw [← Option.some.inj ht']
  exact ⟨hshort, hparen⟩

theorem samplePublication_dumped : (dumpPathFilter samplePublication.filter samplePublication.path samplePublication.root ⟨[], none⟩).1 = .ok () := by
  have hs : sampleTree.All NameWr NodeWr := by
    simp only [sampleTree, Tree.All, Entries.All, NodeWr, NameWr, Entries.names]
    decide
  simp only [samplePublication]
  rw [(C35_dump_partial sampleTree hs b!"/x").1]

theorem samplePublication_honest : samplePublication.Honest (fun _ => List.replicate 32 9) where
  names := samplePublication_ok
  dumped := samplePublication_dumped
  hash := rfl
  size := (congrArg List.length samplePublication_nar).symm
  strict := ⟨strictInfo_strict.storePath, strictInfo_strict.references, strictInfo_strict.narHash⟩
  readable := samplePublication_readable

example : (∀ p ∈ [samplePublication], p.Honest (fun _ => List.replicate 32 9)) ∧
    (∀ k ∈ [(⟨b!"k", List.replicate 32 1⟩ : Named)], ∀ msg sg, onlySample.verify k.data msg sg = true →
      ∃ p ∈ [samplePublication], p.info.fingerprint = .ok msg) ∧
    parse ⟨sampleText, .eof⟩ = .ok samplePublication.info ∧ samplePublication.info.check = .ok () ∧
    samplePublication.info.fingerprint = .ok samplePrint ∧
    verifyFirst onlySample samplePrint samplePublication.info.signatures [⟨b!"k", List.replicate 32 1⟩] = .ok true ∧
    samplePublication.info.narHash.map (·.hash) = some ⟨SHA256, List.replicate 32 9⟩ := by
  have hf : samplePublication.info.fingerprint = .ok samplePrint := by decide +kernel
  refine ⟨?_, ?_, by decide +kernel, by decide +kernel, hf, by decide +kernel, rfl⟩
  · intro p hp
    rw [List.mem_singleton.1 hp]
    exact samplePublication_honest
  · intro k _ msg sg h
    refine ⟨samplePublication, List.mem_singleton.2 rfl, ?_⟩
    have : msg = samplePrint := by simpa [onlySample] using h
    rw [this, hf]

end Verif.Props
