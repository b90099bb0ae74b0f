import Verif.Props.NarText
import Verif.Props.Cmd
import Verif.Props.StoreUri

/-!
# Several parts together: dump and read (C118), one derivation in all stores (C120)
-/

namespace Verif.Props
open Verif.Nar Verif.GoLib Verif.Spec Verif.Wire Verif.Cmd

/-- C118: what `DumpPathFilter` writes when it returns nil is read back by `Reader` as exactly the file system tree without what
the filter rejects (headers in order, contents under all sizes of `Read` calls, then `io.EOF` with the source right after the
archive); `gonix nar cat` prints each file and `gonix nar ls` lists each entry. (What is left of the tree must have no entry called
`)`, names of at most 255 and link targets of at most 4095 bytes, as on Linux.) -/
theorem C118_dump_read (filter : Option Filter) (path : Bytes) (root : FNode) (hok : root.Ok NameOk)
    (h : (dumpPathFilter filter path root ⟨[], none⟩).1 = .ok ())
    (hrd : ∀ t, root.prune (keeps filter) path b!"/" = some t → t.All NameRd NodeRd) (rest : Bytes) (e : Err) :
    ∃ t, root.prune (keeps filter) path b!"/" = some t ∧
      (∀ plan : List (List Nat), plan.length = (t.entriesAt b!"/").length →
        ∃ r s', newReader ⟨(dumpPathFilter filter path root ⟨[], none⟩).2.out ++ rest, e⟩ = (.ok r, s') ∧
          (r.session plan).1 = List.zipWith (fun en ks => (.ok (hdrOf en), readResults en.contents ks)) (t.entriesAt b!"/") plan ∧
          ∃ r'', (r.session plan).2.next = (.err .eof, r'') ∧ r''.st.stream = ⟨rest, e⟩) ∧
      (∀ en ∈ t.entriesAt b!"/", en.kind = b!"regular" →
        catRun ⟨(dumpPathFilter filter path root ⟨[], none⟩).2.out ++ rest, e⟩ en.path = (en.contents, .ok ())) ∧
      lsRun ⟨(dumpPathFilter filter path root ⟨[], none⟩).2.out ++ rest, e⟩ b!"/" true =
        ((t.entriesAt b!"/").flatMap Entry.line, .ok ()) := by
  obtain ⟨t, ht, he⟩ := (C35_exact filter path root hok).2 h
  have hr := hrd t ht
  rw [he]
  refine ⟨t, ht, fun plan hp => C23_read_back_partial t hr rest e plan hp,
    fun en hm hk => (C73_cat_partial t hr rest e en.path).1 en hm rfl hk, ?_⟩
  rw [C72_ls_partial t hr rest e b!"/" true (by decide)]
  rw [List.filter_eq_self.2]
  intro en hm
  obtain ⟨ds, hd, _⟩ := (tree_paths (P := NameRd) (fun n hn => nameOk_good hn.1) t hr [] (by simp)).1 en hm
  unfold Entry.shown
  rw [hd]
  simp [absPath]

example : (dumpPathFilter none b!"/x" (onDisk sampleTree) ⟨[], none⟩).1 = .ok () ∧
    ∀ t, (onDisk sampleTree).prune (keeps none) b!"/x" b!"/" = some t → t.All NameRd NodeRd := by
  have hs : sampleTree.All NameWr NodeWr := by
    simp only [sampleTree, Tree.All, Entries.All, NodeWr, NameWr, Entries.names]
    decide
  refine ⟨(C35_dump_partial _ hs _).1, ?_⟩
  intro t ht
  rw [(onDisk_facts sampleTree hs b!"/x" b!"/").2.2] at ht
  cases ht
  exact sampleTree_ok

/-! ## C120 -/

open Verif.Derivation Verif.Store Verif.Storepath in
/-- C120: a derivation that `MapStore.Put` accepted, under the path it returned, after any history: `MapStore` delivers it; a
directory or an HTTP server that has its text (`WriteDerivation`) at that path delivers an equal derivation; each of these has
the same path and the same text again. -/
theorem C120_stores (H : Bytes → Bytes) (jsonName : Bytes → Res (Option Bytes)) (ds : List Derivation)
    (d : Derivation) (hm : Maps d) (hr : RawClosed d)
    (hj : ∀ j, (b!"__json", j) ∈ d.env → jsonName j = .ok (some d.name) ∧ d.name ≠ [])
    (hn : b!"__json" ∉ d.env.keys → d.name = []) (hc : NameChars d.getName) (p : Bytes)
    (hput : (MapStore.put H d (MapStore.history H newMapStore ds).2).1 = .ok p) :
    ∃ n t, p = b!"/nix/store/" ++ n ∧ d.write ⟨[], none⟩ = (.ok (), ⟨t, none⟩) ∧
      (MapStore.put H d (MapStore.history H newMapStore ds).2).2.get p = .ok d ∧
      (∀ (os : Fs) (dir : Bytes), dir.head? = some 47 → os.lstat (childPath (clean dir) n) = .ok (some .regular) →
        os.openFile (childPath (clean dir) n) = .ok ⟨t, .eof⟩ →
        FSStore.has os ⟨dir⟩ p = .ok true ∧ ∃ d', FSStore.get jsonName os ⟨dir⟩ p = .ok d' ∧ Same d d') ∧
      (∀ (request : Bytes → GoUrl.URL → Res Response) (uri : Bytes) (u : GoUrl.URL), GoUrl.parse uri = .ok u →
        (u.scheme = b!"http" ∨ u.scheme = b!"https") → u.host ≠ [] → GoUrl.ZoneOk u.host →
        (∀ r, r.host = trimColon u.host → r.path = childPath (clean (if u.path = [] then b!"/" else u.path)) n →
          request b!"GET" r = .ok ⟨200, ⟨t, .eof⟩⟩) →
        ∃ d', HTTPStore.get jsonName request ⟨u⟩ p = .ok d' ∧ Same d d') ∧
      ∀ d', Same d d' → drvPath H d' = .ok p ∧ (d'.write ⟨[], none⟩).2.out = t := by
  obtain ⟨hv, _, _, hp⟩ := (C67_put_iff H ds d hm p).1 hput
  have h0 : d.getName ≠ [] := by
    intro h0
    unfold drvPath at hp
    rw [aterm_nil, Res.bind_ok, if_pos h0] at hp
    cases hp
  obtain ⟨_, _, p', _, _, _, hp', _, hsp⟩ := C65_drv_path H d hm h0 hc
  rw [hp] at hp'
  have := Res.ok.inj hp'
  subst this
  obtain ⟨n, hpn, _, _⟩ := storePath_base hsp
  obtain ⟨t, d1, hw, hrd, hs⟩ := C56_roundtrip jsonName d hm hv hr hj hn
  refine ⟨n, t, hpn, hw, ?_, ?_, ?_, ?_⟩
  · rcases put_cases H (history_inv H ds _ mInv_new) d with ⟨q, r, _, _, h⟩ | ⟨_, h1, _⟩
    · rw [h] at hput ⊢
      have : q = p := Res.ok.inj hput
      subst this
      simp [MapStore.get, GoMap.get?_insert]
    · exact absurd hput (h1 _)
  · intro os dir hd hl ho
    exact C90_get H jsonName os dir hd d hm hv hr hj hn ⟨h0, hc⟩ p n t hp hpn hw hl ho
  · intro request uri u hu hsch hh hz hreq
    obtain ⟨r, n', h1, h2, h3, _⟩ := C114_store_path uri u p hu hsch hh hz hsp
    have hnn : n' = n := by
      rw [hpn] at h2
      exact (List.append_cancel_left h2).symm
    subst hnn
    obtain ⟨r', h1', _, _, _, hhost, _⟩ := C114_request uri u p hu hsch hh hz
    rw [h1] at h1'
    have := Res.ok.inj h1'
    subst this
    refine ⟨d1, (C70_get jsonName request ⟨u⟩ p d1).2 ⟨r, _, h1, hreq r hhost h3, by simp, by simp, rfl, hrd⟩, hs⟩
  · intro d' hs'
    refine ⟨by rw [← C65_order H d d' hm hs', hp], ?_⟩
    rw [← (C57_order d d' hm hs' _).2, hw]

open Verif.Derivation Verif.Store Verif.Storepath in
theorem userDrv_raw : RawClosed (userDrv [b!"a"]) where
  outputs := by
    have : ∀ o ∈ (userDrv [b!"a"]).outputs, ∀ s ∈ [o.1, o.2.path, o.2.hashAlgorithm, o.2.hash], s.all (fun c => c != 34 && c != 92) = true := by
      decide +kernel
    intro o ho
    exact ⟨closed_of_plain (this o ho _ (by simp)), closed_of_plain (this o ho _ (by simp)),
      closed_of_plain (this o ho _ (by simp)), closed_of_plain (this o ho _ (by simp))⟩
  inputDrvs := by
    have : ∀ i ∈ (userDrv [b!"a"]).inputDerivations, ∀ s ∈ i.1 :: i.2, s.all (fun c => c != 34 && c != 92) = true := by
      decide +kernel
    intro i hi
    exact ⟨closed_of_plain (this i hi _ (by simp)), fun s hs => closed_of_plain (this i hi _ (by simp [hs]))⟩
  inputSrcs := by
    have : ∀ s ∈ (userDrv [b!"a"]).inputSources, s.all (fun c => c != 34 && c != 92) = true := by decide +kernel
    exact fun s hs => closed_of_plain (this s hs)
  platform := by decide +kernel
  builder := by decide +kernel
  args := by
    have : ∀ s ∈ (userDrv [b!"a"]).arguments, s.all (fun c => c != 34 && c != 92) = true := by decide +kernel
    exact fun s hs => closed_of_plain (this s hs)
  env := by
    have : ∀ e ∈ (userDrv [b!"a"]).env, e.1.all (fun c => c != 34 && c != 92) = true := by decide +kernel
    exact fun e he => closed_of_plain (this e he)

open Verif.Derivation Verif.Store Verif.Storepath in
example : Maps (userDrv [b!"a"]) ∧ RawClosed (userDrv [b!"a"]) ∧ b!"__json" ∉ (userDrv [b!"a"]).env.keys ∧
    (userDrv [b!"a"]).name = [] ∧ NameChars (userDrv [b!"a"]).getName ∧
    (MapStore.put zeroHash (userDrv [b!"a"]) (MapStore.history zeroHash newMapStore [fetchDrv b!"a"]).2).1 =
      .ok (b!"/nix/store/" ++ dHash ++ b!"-user.drv") := by
  refine ⟨⟨by decide +kernel, by decide +kernel, by decide +kernel⟩, userDrv_raw, by decide +kernel, rfl, by decide +kernel, by decide +kernel⟩

end Verif.Props
