import Verif.Spec.Gonix
import Verif.Props.ShowRead
import Verif.Props.Pipeline
import Verif.Props.FsStore

/-!
# C142: `gonix drv show`, from the store URI to the output
-/

namespace Verif.Props
open Verif.GoLib Verif.GoJson Verif.Derivation Verif.Store Verif.Spec Verif.Cmd Verif.Storepath

theorem showDrv_ok {short : Bool} {format out : Bytes} {got : Res Derivation} :
    showDrv short format got = .ok out ↔ ∃ d, got = .ok d ∧ showDrv short format (.ok d) = .ok out := by
  cases got with
  | ok d => simp
  | err e => simp [showDrv]
  | panic => simp [showDrv]

theorem opened_get {w : World} {uri : Bytes} {p : Bytes} {d : Derivation} :
    (∃ s, drvStoreURIDecode w uri = .ok s ∧ s.get w p = .ok d) ↔ ∃ u, GoUrl.parse uri = .ok u ∧ StoreHas w u p d := by
  unfold drvStoreURIDecode openURI newFromURI
  cases hp : GoUrl.parse uri with
  | err e => simp
  | panic => simp
  | ok u =>
    simp only [Res.ok.injEq, exists_eq_left']
    unfold StoreHas
    have fsGet : ∀ fs : FSStore, fs.get w.jsonName w.os p = .ok d ↔
        ∃ s, w.os.openFile (fs.getFilepath p) = .ok s ∧ readDerivation w.jsonName s = .ok d := fun fs => C90_get_iff _ _ _ _ _
    have hpath : (newFSStore u.path).getFilepath p = pathJoin (if u.path = [] then b!"/nix/store" else u.path) (pathBase p) := rfl
    by_cases h1 : u.scheme = []
    · simp only [h1, if_true, Res.ok.injEq, exists_eq_left', OpenStore.get, fsGet, hpath]
      simp
    by_cases h2 : u.scheme = b!"badger"
    · rw [if_neg h1, if_pos h2]
      simp only [h2]
      cases ho : w.openBadger [] with
      | err e => simp
      | panic => simp
      | ok db =>
        simp only [Res.ok.injEq, exists_eq_left', OpenStore.get, Badger.getDrv]
        cases hg : db.get? (b!"drv:" ++ p) with
        | none => simp_all
        | some t => simp_all
    by_cases h3 : u.scheme = b!"file"
    · simp only [h3]
      simp only [show ¬ (b!"file" : Bytes) = [] by decide, show ¬ (b!"file" : Bytes) = b!"badger" by decide, if_false, if_true, Res.ok.injEq,
        exists_eq_left', OpenStore.get, fsGet, hpath]
      simp
    by_cases h4 : u.scheme = b!"http" ∨ u.scheme = b!"https"
    · have hx : (if u.scheme = [] then Res.ok (Opened.fs (newFSStore u.path))
          else if u.scheme = b!"badger" then .ok (.badger [])
          else if u.scheme = b!"file" then .ok (.fs (newFSStore u.path))
          else if u.scheme = b!"http" then .ok (.http ⟨u⟩)
          else if u.scheme = b!"https" then .ok (.http ⟨u⟩)
          else .err (.msg "unknown scheme")) = .ok (.http ⟨u⟩) := by
        rw [if_neg h1, if_neg h2, if_neg h3]
        rcases h4 with h4 | h4
        · rw [if_pos h4]
        · rw [if_neg (by rw [h4]; decide), if_pos h4]
      rw [hx]
      simp only [Res.ok.injEq, exists_eq_left', OpenStore.get, C70_get]
      simp [h1, h2, h3, h4]
    · have h5 := not_or.1 h4
      simp [h1, h2, h3, h5.1, h5.2]

/-- C142: for every URI, path and format, `gonix drv show` succeeds exactly if the URI is one of the documented ones, the store it names
has a derivation under the path, and the format exists; it prints that derivation. -/
theorem C142_show (w : World) (short : Bool) (uri format path out : Bytes) :
    gonixDrvShow w short uri format path = .ok out ↔
      ∃ u d, GoUrl.parse uri = .ok u ∧ StoreHas w u path d ∧ showDrv short format (.ok d) = .ok out := by
  have key : gonixDrvShow w short uri format path = .ok out ↔
      ∃ s, drvStoreURIDecode w uri = .ok s ∧ ∃ d, s.get w path = .ok d ∧ showDrv short format (.ok d) = .ok out := by
    unfold gonixDrvShow
    cases drvStoreURIDecode w uri with
    | ok s => simp [showDrv_ok (got := s.get w path)]
    | err e => simp
    | panic => simp
  rw [key]
  constructor
  · rintro ⟨s, h1, d, h2, h3⟩
    obtain ⟨u, h4, h5⟩ := opened_get.1 ⟨s, h1, h2⟩
    exact ⟨u, d, h4, h5, h3⟩
  · rintro ⟨u, d, h4, h5, h3⟩
    obtain ⟨s, h1, h2⟩ := opened_get.2 ⟨u, h4, h5⟩
    exact ⟨s, h1, d, h2, h3⟩

theorem write_aterm {d : Derivation} {t : Bytes} (h : aterm d false [] = .ok t) : d.write ⟨[], none⟩ = (.ok (), ⟨t, none⟩) := by
  obtain ⟨cs, h1, h2⟩ := write_chunks d
  rw [aterm_nil] at h
  have h := Res.ok.inj h
  unfold Derivation.write
  rw [h1]
  show writeChunks cs _ = _
  rw [writeChunks_none, h2, h]
  rfl

/-- C142: what is printed for a derivation of UTF-8 strings: its ATerm text, or JSON of it. -/
theorem C142_printed (w : World) (short : Bool) (uri format path : Bytes) (u : GoUrl.URL) (d : Derivation) (hu : GoUrl.parse uri = .ok u)
    (hd : StoreHas w u path d) (h8 : DrvUtf8 d) :
    (format ∈ [b!"aterm", b!"json", b!"json-pretty"] →
      ∃ out, gonixDrvShow w short uri format path = .ok out ∧ Printed format d out) ∧
    (format ∉ [b!"aterm", b!"json", b!"json-pretty"] → ∃ e, gonixDrvShow w short uri format path = .err e) := by
  obtain ⟨s, h1, h2⟩ := opened_get.2 ⟨u, hu, hd⟩
  have hshow : gonixDrvShow w short uri format path = showDrv short format (.ok d) := by
    unfold gonixDrvShow
    rw [h1]
    simp only [h2]
  have hm : Maps d := by
    rcases hd with ⟨_, s, _, h⟩ | ⟨_, _, r, _, _, _, _, _, h⟩ | ⟨_, _, _, _, _, h⟩
    · exact read_maps h
    · exact read_maps h
    · exact read_maps h
  rw [hshow]
  constructor
  · intro hf
    simp only [List.mem_cons, List.not_mem_nil, or_false] at hf
    rcases hf with hf | hf
    · subst hf
      exact ⟨_, aterm_nil d false, .inl ⟨rfl, write_aterm (aterm_nil d false)⟩⟩
    · have : ∃ out, showDrv short format (.ok d) = .ok out := by
        rcases hf with rfl | rfl
        · exact ⟨_, rfl⟩
        · exact ⟨_, rfl⟩
      obtain ⟨out, h⟩ := this
      exact ⟨out, h, .inr ⟨hf, C108_decode short d hm h8 format out hf h⟩⟩
  · intro hf
    simp only [List.mem_cons, List.not_mem_nil, or_false, not_or] at hf
    exact ⟨_, by simp only [showDrv]; rw [if_neg hf.2.1, if_neg hf.2.2, if_neg hf.1]⟩

/-- C142: a URI that names no store makes the program panic, whatever else is asked. -/
theorem C142_no_store (w : World) (short : Bool) (uri format path : Bytes) :
    (∀ e, GoUrl.parse uri = .err e → gonixDrvShow w short uri format path = .panic) ∧
    (∀ u, GoUrl.parse uri = .ok u → u.scheme ∉ [[], b!"file", b!"http", b!"https", b!"badger"] →
      gonixDrvShow w short uri format path = .panic) ∧
    (∀ u e, GoUrl.parse uri = .ok u → u.scheme = b!"badger" → w.openBadger [] = .err e →
      gonixDrvShow w short uri format path = .panic) := by
  refine ⟨fun e h => ?_, fun u h hs => ?_, fun u e h hs ho => ?_⟩
  · simp [gonixDrvShow, drvStoreURIDecode, openURI, newFromURI, h]
  · simp only [List.mem_cons, List.not_mem_nil, or_false, not_or] at hs
    simp [gonixDrvShow, drvStoreURIDecode, openURI, newFromURI, h, hs]
  · simp only [gonixDrvShow, drvStoreURIDecode, openURI, newFromURI, h]
    rw [if_neg (by rw [hs]; decide), if_pos hs]
    simp [ho]

/-- C142: a store of the directory `dir`, or of `/nix/store` if no URI is given, is asked for the file with the name of the store path. -/
theorem C142_dir (w : World) (short : Bool) (dir format p : Bytes) (hp : IsStorePath p) :
    (PlainPath dir → dir.head? = some 47 → ∃ n, p = b!"/nix/store/" ++ n ∧
      ∀ out, gonixDrvShow w short dir format p = .ok out ↔ ∃ s d, w.os.openFile (childPath (clean dir) n) = .ok s ∧
        readDerivation w.jsonName s = .ok d ∧ showDrv short format (.ok d) = .ok out) ∧
    ∀ out, gonixDrvShow w short [] format p = .ok out ↔
      ∃ s d, w.os.openFile p = .ok s ∧ readDerivation w.jsonName s = .ok d ∧ showDrv short format (.ok d) = .ok out := by
  have main : ∀ uri dir, newFromURI uri = .ok (.fs ⟨dir⟩) → ∀ out, gonixDrvShow w short uri format p = .ok out ↔
      ∃ s d, w.os.openFile (FSStore.getFilepath ⟨dir⟩ p) = .ok s ∧
        readDerivation w.jsonName s = .ok d ∧ showDrv short format (.ok d) = .ok out := by
    intro uri dir h out
    have e : gonixDrvShow w short uri format p = showDrv short format (FSStore.get w.jsonName w.os ⟨dir⟩ p) := by
      simp only [gonixDrvShow, drvStoreURIDecode, openURI, h]
      rfl
    rw [e, showDrv_ok]
    constructor
    · rintro ⟨d, h1, h2⟩
      obtain ⟨s, h3, h4⟩ := (C90_get_iff _ _ _ _ _).1 h1
      exact ⟨s, d, h3, h4, h2⟩
    · rintro ⟨s, d, h3, h4, h2⟩
      exact ⟨d, (C90_get_iff _ _ _ _ _).2 ⟨s, h3, h4⟩, h2⟩
  constructor
  · intro hpl h47
    obtain ⟨n, h1, h2⟩ := (C69_store_path_partial dir h47 p hp).1
    refine ⟨n, h1, fun out => ?_⟩
    rw [main dir dir ((C113_iff dir (by rintro rfl; simp at h47)).2 hpl) out, h2]
  · intro out
    obtain ⟨n, h1, h2⟩ := (C69_store_path_partial b!"/nix/store" (by decide) p hp).1
    have hc : childPath (clean b!"/nix/store") n = p := by
      rw [h1, show clean b!"/nix/store" = b!"/nix/store" by decide +kernel]
      unfold childPath
      rw [if_neg (by decide)]
      rfl
    rw [main [] b!"/nix/store" (by decide +kernel) out, h2, hc]

/-- C142: a database that `NewBadgerStore("")` makes anew has nothing to show. -/
theorem C142_badger (w : World) (short : Bool) (uri format path : Bytes) (u : GoUrl.URL) (hu : GoUrl.parse uri = .ok u)
    (hs : u.scheme = b!"badger") (ho : w.openBadger [] = .ok []) : ∃ e, gonixDrvShow w short uri format path = .err e := by
  simp only [gonixDrvShow, drvStoreURIDecode, openURI, newFromURI, hu]
  rw [if_neg (by rw [hs]; decide), if_pos hs]
  simp [ho, OpenStore.get, Badger.getDrv, GoMap.get?, showDrv]

theorem mapObject_perm {α : Type} {value : α → Json} {m m' : GoMap α} {v : Json} (h : m.Perm m') (hv : MapObject value m v) :
    MapObject value m' v := by
  obtain ⟨l, h1, h2, h3⟩ := hv
  exact ⟨l, h1.trans h, h2, h3⟩

theorem drvObject_same {d d' : Derivation} {v : Json} (h : Same d d') (hv : DrvObject d' v) : DrvObject d v := by
  obtain ⟨o, i, e, h1, h2, h3, h4⟩ := hv
  exact ⟨o, i, e, mapObject_perm h.outputs.symm h1, mapObject_perm h.inputDerivations.symm h2, mapObject_perm h.env.symm h3,
    by rw [h4, h.inputSources, h.platform, h.builder, h.arguments]⟩

theorem drvUtf8_same {d d' : Derivation} (h : Same d d') (hu : DrvUtf8 d) : DrvUtf8 d' where
  outputs := fun o ho => hu.outputs o (h.outputs.symm.subset ho)
  inputSources := by rw [← h.inputSources]; exact hu.inputSources
  inputDerivations := fun o ho => hu.inputDerivations o (h.inputDerivations.symm.subset ho)
  platform := by rw [← h.platform]; exact hu.platform
  builder := by rw [← h.builder]; exact hu.builder
  arguments := by rw [← h.arguments]; exact hu.arguments
  env := fun o ho => hu.env o (h.env.symm.subset ho)

/-- C142: a derivation that a `MapStore` has accepted, written to its path below `dir`, is shown: as exactly the text that was written,
or as JSON of that derivation. -/
theorem C142_published (w : World) (short : Bool) (H : Bytes → Bytes) (ds : List Derivation) (d : Derivation) (hm : Maps d)
    (hr : RawClosed d) (hj : ∀ j, (b!"__json", j) ∈ d.env → w.jsonName j = .ok (some d.name) ∧ d.name ≠ [])
    (hn : b!"__json" ∉ d.env.keys → d.name = []) (hc : NameChars d.getName) (h8 : DrvUtf8 d) (p : Bytes)
    (hput : (MapStore.put H d (MapStore.history H newMapStore ds).2).1 = .ok p) :
    ∃ n t, p = b!"/nix/store/" ++ n ∧ d.write ⟨[], none⟩ = (.ok (), ⟨t, none⟩) ∧
      ∀ dir, PlainPath dir → dir.head? = some 47 → w.os.openFile (childPath (clean dir) n) = .ok ⟨t, .eof⟩ →
        gonixDrvShow w short dir b!"aterm" p = .ok t ∧
        ∀ format, format = b!"json" ∨ format = b!"json-pretty" →
          ∃ out v, gonixDrvShow w short dir format p = .ok out ∧ unmarshal out = some v ∧ DrvObject d v := by
  obtain ⟨n, t, h1, h2, _, h3, _, h4⟩ := C120_stores H w.jsonName ds d hm hr hj hn hc p hput
  obtain ⟨hv, _, _, hp⟩ := (C67_put_iff H ds d hm p).1 hput
  have h0 : d.getName ≠ [] := by
    intro h0
    unfold drvPath at hp
    rw [aterm_nil, Res.bind_ok, if_pos h0] at hp
    cases hp
  obtain ⟨_, _, p', _, _, _, hp', _, hsp⟩ := C65_drv_path H d hm h0 hc
  rw [hp] at hp'
  have := Res.ok.inj hp'
  subst this
  obtain ⟨b, d', hb, hrd, hs⟩ := C56_roundtrip w.jsonName d hm hv hr hj hn
  have hbt : b = t := by
    rw [h2] at hb
    simpa using hb.symm
  subst hbt
  refine ⟨n, b, h1, h2, fun dir hpl h47 ho => ?_⟩
  obtain ⟨n', hn', hiff⟩ := (C142_dir w short dir b!"aterm" p hsp).1 hpl h47
  have hnn : n' = n := by
    rw [h1] at hn'
    exact (List.append_cancel_left hn').symm
  subst hnn
  have h5 := (h4 d' hs).2
  constructor
  · refine (hiff b).2 ⟨_, d', ho, hrd, ?_⟩
    have := write_aterm (aterm_nil d' false)
    rw [this] at h5
    simp only at h5
    show aterm d' false [] = _
    rw [aterm_nil, h5]
  · intro format hf
    obtain ⟨n2, hn2, hiff2⟩ := (C142_dir w short dir format p hsp).1 hpl h47
    have hnn : n2 = n' := by
      rw [h1] at hn2
      exact (List.append_cancel_left hn2).symm
    subst hnn
    have : ∃ out, showDrv short format (.ok d') = .ok out := by
      rcases hf with rfl | rfl
      · exact ⟨_, rfl⟩
      · exact ⟨_, rfl⟩
    obtain ⟨out, h⟩ := this
    obtain ⟨v, hv1, hv2⟩ := C108_decode short d' (read_maps hrd) (drvUtf8_same hs h8) format out hf h
    exact ⟨out, v, (hiff2 out).2 ⟨_, d', ho, hrd, h⟩, hv2, drvObject_same hs hv1⟩

/-- A machine with one derivation, in `/drvs`, an empty database, and a server that answers 404. -/
def oneFile : World where
  os := ⟨fun _ => .ok none, fun p => if p = b!"/drvs/x.drv" then .ok ⟨linkedText, .eof⟩ else .err (.msg "no such file")⟩
  request := fun _ _ => .ok ⟨404, ⟨[], .eof⟩⟩
  openBadger := fun _ => .ok []
  jsonName := fun _ => .panic

example : gonixDrvShow oneFile true b!"/drvs" b!"aterm" b!"/nix/store/x.drv" = .ok linkedText ∧
    gonixDrvShow oneFile true b!"file:///drvs" b!"aterm" b!"x.drv" = .ok linkedText ∧
    gonixDrvShow oneFile true [] b!"aterm" b!"/drvs/x.drv" = .err (.msg "no such file") ∧
    gonixDrvShow oneFile true b!"/drvs" b!"yaml" b!"x.drv" = .err (.msg "invalid format") ∧
    gonixDrvShow oneFile true b!"badger:///drvs" b!"aterm" b!"x.drv" = .err (.msg "derivation path not found") ∧
    gonixDrvShow oneFile true b!"https://h/drvs" b!"aterm" b!"x.drv" = .err (.msg "bad status code") ∧
    gonixDrvShow oneFile true b!"ftp://h/drvs" b!"aterm" b!"x.drv" = .panic := by decide +kernel

/-- a derivation that meets the hypotheses of `C142_published` (with the example for C120) -/
example : DrvUtf8 (userDrv [b!"a"]) ∧ PlainPath b!"/drvs" := by
  have ascii : ∀ s : Bytes, s.all (fun c => decide (c.toNat < 0x80)) = true → IsUtf8 s := fun s h => isUtf8_ascii h
  refine ⟨⟨fun o ho => ?_, fun s hs => ?_, fun i hi => ?_, ascii _ (by decide +kernel), ascii _ (by decide +kernel), fun s hs => ?_, fun e he => ?_⟩,
    ⟨by decide, by decide, by decide⟩⟩
  · have : ∀ o ∈ (userDrv [b!"a"]).outputs, ∀ s ∈ [o.1, o.2.path, o.2.hashAlgorithm, o.2.hash], s.all (fun c => decide (c.toNat < 0x80)) = true := by
      decide +kernel
    exact ⟨ascii _ (this o ho _ (by simp)), ascii _ (this o ho _ (by simp)), ascii _ (this o ho _ (by simp)), ascii _ (this o ho _ (by simp))⟩
  · have : ∀ s ∈ (userDrv [b!"a"]).inputSources, s.all (fun c => decide (c.toNat < 0x80)) = true := by decide +kernel
    exact ascii _ (this s hs)
  · have : ∀ i ∈ (userDrv [b!"a"]).inputDerivations, ∀ s ∈ i.1 :: i.2, s.all (fun c => decide (c.toNat < 0x80)) = true := by decide +kernel
    exact ⟨ascii _ (this i hi _ (by simp)), fun s hs => ascii _ (this i hi _ (by simp [hs]))⟩
  · have : ∀ s ∈ (userDrv [b!"a"]).arguments, s.all (fun c => decide (c.toNat < 0x80)) = true := by decide +kernel
    exact ascii _ (this s hs)
  · have : ∀ i ∈ (userDrv [b!"a"]).env, ∀ s ∈ [i.1, i.2], s.all (fun c => decide (c.toNat < 0x80)) = true := by decide +kernel
    exact ⟨ascii _ (this e he _ (by simp)), ascii _ (this e he _ (by simp))⟩

end Verif.Props
