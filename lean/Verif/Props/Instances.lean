import Verif.Props.NarRefs
import Verif.Props.Nixhash
import Verif.Props.Nixbase32
import Verif.Props.WireMany
import Verif.Props.Storepath
import Verif.Props.StoreUri
import Verif.Props.DrvJson
import Verif.Props.Gonix
import Verif.Props.Memory
import Verif.Props.NarinfoRefs
import Verif.Props.NarinfoAgain
import Verif.Props.ShowRead
import Verif.Props.Out
import Verif.Props.References
import Verif.Props.Scan
import Verif.Props.Handles
import Verif.Props.HashHeap
import Verif.Props.Substitute
import Verif.Props.Sqlite
import Verif.Props.BadgerExact
import Verif.Props.CmdExact
import Verif.Props.NarPrefix

/-!
# Theorems applied to concrete cases

Many theorems have an example beside them that meets their hypotheses. This file applies further ones to concrete values, so
that Lean checks that their hypotheses can be met; the statement of each example is the theorem's conclusion for these values.
-/

namespace Verif.Props.Instances
open Verif.GoLib Verif.Spec

/-! ## Encodings and hashes (C02, C05, C08-C12) -/

section
open Verif.Nixbase32
/-- The example of `/repo`: 20 bytes. -/
def someDigest : Bytes := [31, 116, 215, 71, 41, 171, 220, 8, 244, 248, 78, 143, 127, 140, 128, 140, 142, 217, 46, 229]

example := C02_unique (encodeToString someDigest) (encodeToString someDigest) someDigest (by decide +kernel) (by decide +kernel)
example := C05_no_panic [0, 0, 0, 7] b!"10z1" (by decide)
example := C05_decode_valid (List.replicate 25 3) someDigest (by decide)
example := C05_success_length [0, 0, 5] b!"08" [8, 0, 5] 1 (by decide +kernel)
example := C05_frame_partial [0, 0, 5] b!"08" [8, 0, 5] 1 1 none (by decide) (by decide) (by decide +kernel)
end

section
open Verif.Nixhash
/-- A SHA-256 hash in the form that Nix prints. -/
def someHash : Bytes := b!"sha256-47DEQpj8HBSa+/TImW+5JCeuQeRkm5NMpJWZG3hSuFU="
def someHashValue : HashWithEncoding := match parseAny someHash none with | .ok h => h | _ => ⟨⟨SHA256, []⟩, SRI, true⟩
theorem someHash_ok : parseAny someHash none = .ok someHashValue := by decide +kernel

example := C08_exact someHash none someHashValue someHash_ok
example := C09_algo_enforced someHash none someHashValue someHash_ok
example := C09_mismatch_rejected SHA256 SHA1 b!"sha256" 32 45 (someHash.drop 7) (by decide) (by decide) (by decide)
example := C10_reparse someHash none someHashValue b!"sha256" 32 someHash_ok (by decide +kernel) (by decide +kernel)
example := C12_compress b!"some bytes to fold" 5 (by decide)
example := C12_linear b!"abcdefg" b!"1234567" 3 (by decide) rfl [98, 7, 5] [50, 7, 5] (by decide +kernel)
  (by decide +kernel)
end

/-! ## The wire format (C13-C19, C136) -/

section
open Verif.Wire
example := C13_uint64 0xdeadbeef (by decide) b!"before"
example := C13_bool_rejects [2, 0, 0, 0, 0, 0, 0, 0] b!"rest" .eof 2 ⟨by decide, by decide⟩ (by decide) (by decide)
example := C15_limit 5 ⟨[3, 0, 0, 0, 0, 0, 0, 0, 97, 98, 99, 0, 0, 0, 0, 0, 1], .eof⟩ ⟨[1], .eof⟩ b!"abc" (by decide +kernel)
example := C15_limit_error 5 6 [6, 0, 0, 0, 0, 0, 0, 0] b!"abcdef" .eof ⟨by decide, by decide⟩ (by decide)
example := C17_bytes_reader ⟨[b!"ab", [], b!"cd", [0, 0, 0, 0, 9]], .eof, false⟩ b!"abcd" [0, 0, 0, 0, 9]
  (by decide) (by decide) [1, 0, 7, 3]
example := C18_bytes_writer 5 (by decide) b!"x" [.write b!"ab", .write b!"cde", .write b!"f", .close]
  (by intro p hp; simp at hp; rcases hp with rfl | rfl | rfl <;> decide)
example := C18_closed_is_packet 3 [3, 0, 0, 0, 0, 0, 0, 0] b!"abc" [0, 0, 0, 0, 0] ⟨by decide, by decide⟩ (by decide) (by decide) (by decide) rfl
example := C19_fragmentation ⟨[[3, 0], [0, 0, 0, 0, 0, 0, 97], b!"bc", [0, 0, 0, 0, 0]], .eof, false⟩
  ⟨[[3, 0, 0, 0, 0, 0, 0, 0, 97, 98, 99, 0, 0, 0, 0, 0]], .eof, true⟩ (by decide) rfl
end

/-! ## Store paths (C42, C43, C69, C113, C114) -/

section
open Verif.Storepath
example := C42_exact (sampleHash ++ b!"-hello") ⟨b!"hello", match Nixbase32.decodeString sampleHash with | .ok d => d | _ => []⟩ (by decide +kernel)
example := C42_accepts_partial (sampleHash ++ b!"-hello") (by decide)
example := C43_prefix_partial b!"/gnu/store/" (sampleHash ++ b!"-hello") rfl
example := C43_store_partial (sampleHash ++ b!"-hello") (by decide) (by decide)
end

section
open Verif.Store
example := C69_near_partial b!"/d" b!"/nix/store/x.drv" rfl
example := C69_exact b!"/d/./e" b!"/nix/store/x.drv/" rfl
example := C113_iff b!"/nix/store" (by decide)
example := C114_opaque { GoUrl.URL.zero with scheme := b!"http", opaq := b!"x" } (by decide) b!"a" b!"b"
end

/-! ## Derivations (C57, C62, C63, C65, C85, C87-C89, C108, C109, C140, C141) -/

section
open Verif.Derivation Verif.Cmd Verif.Storepath
/-- A hash function for the examples. -/
def take32 : Bytes → Bytes := fun b => b.take 32

theorem sampleDrv_u : DrvUtf8 sampleDrv := sampleDrv_utf8.2

/-- What `drv show` prints for it. -/
def someJson : Bytes := match showDrv false b!"json" (.ok sampleDrv) with | .ok t => t | _ => []

example := C57_sorted sampleDrv sampleDrv_maps
example := C62_verdict_partial sampleDrv { sampleDrv with env := sampleDrv.env.reverse }
  { Same.refl sampleDrv with env := (List.reverse_perm _).symm } (by decide +kernel)
example := C63_self_reference take32 sampleDrv (fun _ => b!"p") (fun _ => b!"v") sampleRepl (by decide +kernel)
example := C65_drv_path take32 sampleDrv sampleDrv_maps (by decide) (by decide)
example := C85_read_no_panic_partial (fun _ => .ok none) (by intro _ h; nomatch h)
example := C88_fails_iff take32 sampleDrv sampleRepl sampleDrv_maps (by decide)
example := C89_fixed take32 { sampleDrv with outputs := [(b!"out", ⟨b!"p", b!"sha256", b!"00"⟩)] } [] ⟨b!"p", b!"sha256", b!"00"⟩ rfl (by decide)
example := C108_json true sampleDrv sampleDrv_maps
example := C108_utf8 true sampleDrv sampleDrv_maps sampleDrv_u
example := C108_decode false sampleDrv sampleDrv_maps sampleDrv_u b!"json" someJson (.inl rfl) (by decide +kernel)
example := C108_order false b!"json" sampleDrv { sampleDrv with env := sampleDrv.env.reverse } sampleDrv_maps
  { Same.refl sampleDrv with env := (List.reverse_perm _).symm } (.inl rfl)
example := C140_read false b!"json" sampleDrv sampleDrv_maps (.inl rfl) someJson (by decide +kernel)
example := C140_exact false b!"json" sampleDrv sampleDrv_maps (.inl rfl) someJson (by decide +kernel)
example := C140_roundtrip_partial false b!"json" sampleDrv sampleDrv_maps sampleDrv_u (.inl rfl) someJson (by decide +kernel)
example := C140_valid false b!"json" sampleDrv sampleDrv_maps sampleDrv_u sampleDrv_valid (.inl rfl) someJson (by decide +kernel)
example := C109_injective_partial false b!"json" sampleDrv { sampleDrv with env := sampleDrv.env.reverse } sampleDrv_maps
  ⟨sampleDrv_maps.1, sampleDrv_maps.2, by decide +kernel⟩ sampleDrv_u { sampleDrv_u with env := fun e he => sampleDrv_u.env e (List.mem_reverse.1 he) } (.inl rfl)
  (C108_order false b!"json" sampleDrv _ sampleDrv_maps { Same.refl sampleDrv with env := (List.reverse_perm _).symm } (.inl rfl))
end

/-! ## narinfo (C50, C112) -/

section
open Verif.Narinfo
/-- A file, and what is read from it. -/
def someInfo : NarInfo := match parse ⟨strictText, .eof⟩ with | .ok n => n | _ => Narinfo.empty
theorem someInfo_ok : parse ⟨strictText, .eof⟩ = .ok someInfo := by decide +kernel
example := C50_result _ _ someInfo_ok
example := C112_outcome _ _ someInfo_ok strictInfo
example := C112_panic _ _ someInfo_ok
example := C112_exact _ _ someInfo_ok
end

/-! ## nar (C91, C93, C106, C107, C118, C121-C123, C135, C138) -/

section
open Verif.Nar Verif.Cmd
example := C91_ls_total ⟨sampleTree.nar.take 300, .io⟩ (by decide) b!"/b" true
example := C91_cat_total ⟨sampleTree.nar.take 300, .io⟩ (by decide) b!"/bin"
example := C72_line ⟨b!"/b/x", b!"symlink", false, b!"../a.txt", []⟩ (by decide)
example := C72_sound_partial sampleTree sampleTree_ok b!"rest" .io b!"/b" true
example := C72_exact sampleTree sampleTree_ok b!"rest" .io b!"/b" true
example := C138_wire 100 4095 (by decide) ⟨[200, 0, 0, 0, 0, 0, 0, 0], .eof⟩
example := C138_reader ⟨4095, 14⟩ (by decide) ⟨sampleTree.nar, .eof⟩ (by decide +kernel)
example := C122_ls ⟨sampleTree.nar.take 300, .io⟩ ⟨sampleTree.nar, .eof⟩ (List.take_prefix _ _) b!"/b" true
example := C122_cat ⟨sampleTree.nar.take 237, .io⟩ ⟨sampleTree.nar, .eof⟩ (List.take_prefix _ _) b!"/a.txt"
example := C106_ls_open ⟨b!"short", .eof⟩ _ (.msg "invalid nar version magic") (by rfl) b!"/" true
example := C107_cat_open ⟨b!"short", .eof⟩ _ (.msg "invalid nar version magic") (by rfl) b!"/"
example := C106_ls _ _ _ (newReader_nar' sampleTree .eof) b!"/b" true
example := C107_cat _ _ _ (newReader_nar' sampleTree .eof) b!"/bin"
example := C91_header_bound _ _ _ (newReader_nar' sampleTree .eof) [.next, .next, .read 3, .next]
example := C26_order _ _ _ (newReader_nar' sampleTree .eof) [.next, .next, .read 3, .next]
example := C32_close_partial _ _ _ (newReader_nar' sampleTree .eof) [.next, .next, .read 3] (by decide)
set_option maxRecDepth 20000 in
example := C93_read_partial _ _ _ _ (newReader_nar' sampleTree .eof) [.next] ⟨b!"/a.txt", b!"regular", [], 12, false⟩ (by rfl) [5, 0, 9]
example := C122_headers _ _ ⟨sampleTree.nar ++ b!"more", .io⟩ _ (newReader_nar' sampleTree .eof) (List.prefix_append _ _)
example := C138_tree ⟨4095, 2⟩ (by decide) sampleTree sampleTree_ok b!"rest" .eof [[], [5], []] (by decide +kernel)
example := C127_fold (D := ⟨Bytes, fun st p => ((p.length, none), st ++ p)⟩) (fun st p => st ++ p) (fun _ _ => rfl) (by simp) (by simp)
  [] none b!"/x" sampleDisk
end

section
open Verif.Out
theorem pipe_honest : ∀ st p, (pipe.write st p).1.2 = none → (pipe.write st p).1.1 = p.length := by
  intro st p h
  simp only [pipe] at h ⊢
  split <;> simp_all
example := C125_dump pipe_honest (10 : Nat) none b!"/x" Verif.Props.sampleDisk
example := C125_command pipe_honest (10 : Nat) b!"/x" Verif.Props.sampleDisk
example := C125_derivation pipe_honest (10 : Nat) sampleDrv
end

end Verif.Props.Instances
