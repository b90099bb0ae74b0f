import Verif.Props.DrvGrammar
import Verif.Props.Store

/-!
# C90: FSStore and files that are not regular
-/

namespace Verif.Props
open Verif.GoLib Verif.Derivation Verif.Store Verif.Storepath Verif.Wire

/-- A derivation file used in the examples. -/
def linkedText : Bytes :=
  b!"Derive([(\"out\",\"/nix/store/" ++ dHash ++ b!"-a\",\"\",\"\")],[],[],\"x\",\"/bin/sh\",[],[(\"name\",\"a\")])"

/-- A file system where every file is a symlink to a derivation file. -/
def linkedFs : Fs := ⟨fun _ => .ok (some .symlink), fun _ => .ok ⟨linkedText, .eof⟩⟩

/-- `Has` and `Get` see different files: for a file that is not regular `Has` is an error, whereas `Get` goes through a symlink
and returns the derivation behind it; and `Get` does not ask `Lstat` at all. "These files need to be regular files" (filesystem.go:33)
is not enforced by `Get`. -/
theorem C90_symlink (jsonName : Bytes → Res (Option Bytes)) (os : Fs) (fs : FSStore) (p : Bytes) :
    (∀ k, k ≠ FileKind.regular → os.lstat (fs.getFilepath p) = .ok (some k) →
      (∃ e, fs.has os p = .err e) ∧ ∀ s d, os.openFile (fs.getFilepath p) = .ok s → readDerivation jsonName s = .ok d →
        fs.get jsonName os p = .ok d) ∧
    (∀ lstat', fs.get jsonName ⟨lstat', os.openFile⟩ p = fs.get jsonName os p) := by
  refine ⟨fun k hk hl => ⟨((C90_has os fs p).2.2).2 (.inr ⟨k, hl, hk⟩), fun s d ho hr => ?_⟩, fun _ => rfl⟩
  exact (C90_get_iff jsonName os fs p d).2 ⟨s, ho, hr⟩

example : (∃ e, FSStore.has linkedFs ⟨b!"/drvs"⟩ b!"/nix/store/x.drv" = .err e) ∧
    ∃ d, FSStore.get (fun _ => .panic) linkedFs ⟨b!"/drvs"⟩ b!"/nix/store/x.drv" = .ok d ∧ d.builder = b!"/bin/sh" := by
  refine ⟨((C90_has _ _ _).2.2).2 (.inr ⟨.symlink, rfl, by decide⟩), ?_⟩
  have h : ∃ d, readDerivation (fun _ => .panic) ⟨linkedText, .eof⟩ = .ok d ∧ d.builder = b!"/bin/sh" := by
    rcases hr : readDerivation (fun _ => .panic) ⟨linkedText, .eof⟩ with d | e | _
    · refine ⟨d, rfl, ?_⟩
      have : (match readDerivation (fun _ => .panic) ⟨linkedText, .eof⟩ with | .ok d => d.builder | _ => []) = b!"/bin/sh" := by
        decide +kernel
      rw [hr] at this
      exact this
    · have : (match readDerivation (fun _ => .panic) ⟨linkedText, .eof⟩ with | .ok _ => true | _ => false) = true := by
        decide +kernel
      rw [hr] at this
      cases this
    · have : (match readDerivation (fun _ => .panic) ⟨linkedText, .eof⟩ with | .ok _ => true | _ => false) = true := by
        decide +kernel
      rw [hr] at this
      cases this
  obtain ⟨d, hd, hb⟩ := h
  exact ⟨d, ((C90_symlink (fun _ => .panic) linkedFs ⟨b!"/drvs"⟩ b!"/nix/store/x.drv").1 .symlink (by decide) rfl).2 _ d rfl hd, hb⟩

end Verif.Props
