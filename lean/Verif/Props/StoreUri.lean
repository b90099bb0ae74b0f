import Verif.Spec.StoreUri
import Verif.Lemmas.UrlText
import Verif.Props.Store

/-!
# Stores opened by URI: C113, C114
-/

namespace Verif.Props
open Verif.GoLib Verif.Derivation Verif.Store Verif.Storepath Verif.Wire Verif.GoUrl
open Verif.Spec (childPath)

/-! ## C113 -/

theorem parse_path_exact {p : Bytes} (h0 : p ≠ []) {u : URL} (h : parse p = .ok u) (hu : u.path = p) : PlainPath p := by
  unfold parse at h
  rw [Res.bind_eq_ok] at h
  obtain ⟨v, h1, h2⟩ := h
  have hv : v.path = p := by
    split at h2
    · rw [Res.ok.inj h2]; exact hu
    · have := setFragment_ok h2
      rw [this] at hu; exact hu
  clear h2 hu u
  obtain ⟨c1, c2⟩ := cut_length p 35
  generalize (cut p 35).1 = raw at h1 c1 c2
  unfold parseNoFrag at h1
  split at h1
  · simp at h1
  rename_i hctl
  have hctl : raw.any isCtl = false := by simpa using hctl
  split at h1
  · rename_i hr
    have := Res.ok.inj h1
    subst this
    simp only at hv
    subst hr; subst hv
    refine ⟨by decide, by decide, by decide⟩
  rename_i hr
  rw [Res.bind_eq_ok] at h1
  obtain ⟨sr, h3, h4⟩ := h1
  obtain ⟨d1, d2⟩ := getScheme_length h3
  obtain ⟨e1, e2⟩ := splitQuery_length sr.2
  simp only at h4
  generalize hq : splitQuery sr.2 = q at h4 e1 e2
  have hlp := List.length_pos_iff.2 h0
  by_cases hq0 : q.1 = []
  · unfold parseRest at h4
    rw [hq0] at h4
    rw [if_pos (by simp)] at h4
    split at h4
    · have := Res.ok.inj h4
      rw [← this] at hv
      exact absurd hv.symm h0
    · rw [if_neg (by decide)] at h4
      have := (setPath_ok h4).1
      have := Res.ok.inj this
      rw [hv] at this
      exact absurd this.symm h0
  obtain ⟨f1, f2⟩ := parseRest_length (by rfl) hq0 h4
  rw [hv] at f1 f2
  have l1 : raw.length = p.length := by omega
  have l2 : sr.2.length = raw.length := by omega
  have l3 : q.1.length = sr.2.length := by omega
  have l4 : p.length = q.1.length := by omega
  obtain ⟨rfl, n35⟩ := c2 l1
  have hsr := d2 l2
  subst hsr
  obtain ⟨hq1, n63⟩ := e2 l3
  simp only at hq1 n63
  rw [hq1] at f2
  obtain ⟨-, n37, k1, k2⟩ := f2 rfl
  refine ⟨?_, fun h => (k2 h).2, ?_⟩
  · rw [any_isCtl] at hctl
    intro c hc
    refine ⟨(hctl c hc).1, (hctl c hc).2, ?_, ?_, ?_⟩ <;> rintro rfl <;> contradiction
  · rintro ⟨g1, g2⟩
    have hh : raw.head? = some 47 := by
      obtain ⟨t, rfl⟩ := g1; rfl
    exact k1 hh ⟨.inr (hasPrefix_false.2 g2), hasPrefix_iff.2 g1⟩

theorem takeWhile_slash {p : Bytes} (h : p.head? = some 47) : p.takeWhile (· != 47) = [] := by
  cases p with
  | nil => rfl
  | cons c p => simp at h; subst h; rfl

theorem parse_plain {p : Bytes} (h0 : p ≠ []) (h : PlainPath p) : ∃ u, parse p = .ok u ∧ u.scheme = [] ∧ u.path = p := by
  obtain ⟨h1, h2, h3⟩ := h
  have n35 : (35 : UInt8) ∉ p := fun hm => (h1 _ hm).2.2.1 rfl
  have n63 : (63 : UInt8) ∉ p := fun hm => (h1 _ hm).2.2.2.1 rfl
  have n37 : (37 : UInt8) ∉ p := fun hm => (h1 _ hm).2.2.2.2 rfl
  have hctl : p.any isCtl = false := (any_isCtl p).2 fun c hc => ⟨(h1 c hc).1, (h1 c hc).2.1⟩
  have n58 : (58 : UInt8) ∉ p.takeWhile (· != 47) := by
    by_cases hh : p.head? = some 47
    · rw [takeWhile_slash hh]; simp
    · exact h2 hh
  have hun : unescape .path p = .ok p := unescape_plain n37 fun c _ => badByte_path _ (by decide) (by decide) c
  have hset : ∀ u : URL, u.scheme = [] → ∃ v, setPath u p = .ok v ∧ v.scheme = [] ∧ v.path = p := by
    intro u hu
    unfold setPath
    rw [hun]
    exact ⟨_, rfl, hu, rfl⟩
  suffices h : ∃ u, parseNoFrag p = .ok u ∧ u.scheme = [] ∧ u.path = p by
    obtain ⟨u, g1, g2⟩ := h
    refine ⟨u, ?_, g2⟩
    unfold parse
    rw [cut_none n35, g1, Res.bind_ok, if_pos rfl]
  unfold parseNoFrag
  rw [hctl]
  simp only [Bool.false_eq_true, if_false]
  split
  · rename_i hs
    subst hs
    exact ⟨_, rfl, rfl, rfl⟩
  · rw [getScheme_none n58, Res.bind_ok]
    simp only
    rw [splitQuery_none n63]
    unfold parseRest
    by_cases hh : p.head? = some 47
    · rw [if_neg (by simpa using hh), if_neg]
      · exact hset _ rfl
      · rintro ⟨g1, g2⟩
        rcases g1 with g1 | g1
        · exact g1 rfl
        · exact h3 ⟨hasPrefix_iff.1 g2, hasPrefix_false.1 g1⟩
    · rw [if_pos hh, if_neg (by simp), if_neg (by unfold cut; exact n58)]
      exact hset _ rfl

/-- C113: `NewFromURI` given a path opens the store in the directory with exactly this path if and only if the path
contains no control character and none of `#`, `?`, `%`, does not begin with exactly two slashes, and, if relative,
has no colon in its first component. -/
theorem C113_iff (p : Bytes) (h0 : p ≠ []) : newFromURI p = .ok (.fs ⟨p⟩) ↔ PlainPath p := by
  constructor
  · intro h
    unfold newFromURI at h
    cases hp : parse p with
    | err e => rw [hp] at h; simp at h
    | panic => rw [hp] at h; simp at h
    | ok u =>
      rw [hp] at h
      simp only at h
      have key : newFSStore u.path = ⟨p⟩ := by
        split at h
        · simpa using h
        split at h
        · simp at h
        split at h
        · simpa using h
        split at h
        · simp at h
        split at h <;> simp at h
      unfold newFSStore at key
      split at key
      · simp only [FSStore.mk.injEq] at key
        subst key
        refine ⟨by decide, by decide, by decide⟩
      · exact parse_path_exact h0 hp (by simpa using key)
  · intro h
    obtain ⟨u, h1, h2, h3⟩ := parse_plain h0 h
    unfold newFromURI
    rw [h1]
    simp only
    rw [if_pos h2, h3]
    unfold newFSStore
    rw [if_neg h0]

/-- C113 without the condition is false: such paths open other directories. -/
theorem C113_refuted :
    newFromURI b!"/tmp/a?b" = .ok (.fs ⟨b!"/tmp/a"⟩) ∧ newFromURI b!"/a%20b" = .ok (.fs ⟨b!"/a b"⟩) ∧
    newFromURI b!"/srv/#1" = .ok (.fs ⟨b!"/srv/"⟩) ∧ newFromURI b!"//srv/drvs" = .ok (.fs ⟨b!"/drvs"⟩) ∧
    newFromURI b!"file:drvs" = .ok (.fs ⟨b!"/nix/store"⟩) ∧ newFromURI b!"file://drvs" = .ok (.fs ⟨b!"/nix/store"⟩) ∧
    newFromURI b!"/50%" = .err (.msg "unable to parse uri") ∧ newFromURI b!"a:b" = .err (.msg "unknown scheme") ∧
    ¬ PlainPath b!"/tmp/a?b" := by
  refine ⟨by decide +kernel, by decide +kernel, by decide +kernel, by decide +kernel, by decide +kernel, by decide +kernel,
    by decide +kernel, by decide +kernel, ?_⟩
  rintro ⟨h, _⟩
  exact (h 63 (by decide)).2.2.2.1 rfl

example : PlainPath b!"/nix/var: x" ∧ PlainPath b!"drvs/a:b" := by
  refine ⟨⟨by decide, by decide, by decide⟩, ⟨by decide, by decide, by decide⟩⟩

/-- C113: the `file` URL that `net/url` prints for an absolute path opens the store in this directory, whatever bytes
the path has. -/
theorem C113_file (p : Bytes) (hp : p.head? = some 47) :
    newFromURI (URL.string { URL.zero with scheme := b!"file", path := p }) = .ok (.fs ⟨p⟩) := by
  have h0 : p ≠ [] := by rintro rfl; simp at hp
  have hs : URL.string { URL.zero with scheme := b!"file", path := p } = b!"file://" ++ escape .path p := by
    have hstar : p ≠ b!"*" := by rintro rfl; simp at hp
    have hh : (escape .path p).head? = some 47 := by
      cases p with
      | nil => simp at hp
      | cons c p => simp at hp; subst hp; rfl
    unfold URL.string URL.authorityText URL.pathText URL.escapedPath URL.zero
    simp [hstar, h0, hh, userText]
    rfl
  rw [hs]
  have n35 : (35 : UInt8) ∉ b!"file://" ++ escape .path p := by
    simp only [List.mem_append, not_or]
    exact ⟨by decide, not_mem_escape (by decide) (by decide)⟩
  have n63 : (63 : UInt8) ∉ b!"//" ++ escape .path p := by
    simp only [List.mem_append, not_or]
    exact ⟨by decide, not_mem_escape (by decide) (by decide)⟩
  have hctl : (b!"file://" ++ escape .path p).any isCtl = false := by
    rw [any_isCtl]
    intro c hc
    rcases List.mem_append.1 hc with hc | hc
    · have : ∀ c ∈ b!"file://", 32 ≤ c ∧ c ≠ 127 := by decide
      exact this c hc
    · rcases mem_escape hc with rfl | hc
      · decide
      · have key : ∀ n : Fin 256, shouldEscape (UInt8.ofNat n) .path = false →
            32 ≤ UInt8.ofNat n ∧ UInt8.ofNat n ≠ 127 := by decide +kernel
        exact byte_cases (P := fun c => shouldEscape c .path = false → 32 ≤ c ∧ c ≠ 127) key c hc
  have hsch : getScheme (b!"file://" ++ escape .path p) = .ok (b!"file", b!"//" ++ escape .path p) := rfl
  obtain ⟨q, hq⟩ : ∃ q, escape .path p = 47 :: q := by
    cases p with
    | nil => simp at hp
    | cons c p => simp at hp; subst hp; exact ⟨_, rfl⟩
  have hpr : ∃ u, parse (b!"file://" ++ escape .path p) = .ok u ∧ u.scheme = b!"file" ∧ u.path = p := by
    unfold parse
    rw [cut_none n35]
    unfold parseNoFrag
    simp only
    rw [hctl]
    rw [if_neg (by simp), if_neg (by simp), hsch, Res.bind_ok]
    simp only
    rw [splitQuery_none n63]
    unfold parseRest
    simp only
    rw [if_neg (by simp), if_pos ⟨.inl (by decide), rfl⟩]
    have hd : (b!"//" ++ escape .path p).drop 2 = escape .path p := rfl
    rw [hd, hq]
    have ht : (47 :: q).takeWhile (· != 47) = [] := rfl
    have ht' : (47 :: q).dropWhile (· != 47) = 47 :: q := rfl
    rw [ht, ht', ← hq]
    have ha : parseAuthority [] = .ok (none, []) := rfl
    rw [ha, Res.bind_ok]
    unfold setPath
    rw [unescape_escape (fun c _ => readable_path _ (by decide) (by decide) c)]
    exact ⟨_, rfl, rfl, rfl⟩
  obtain ⟨u, h1, h2, h3⟩ := hpr
  unfold newFromURI
  rw [h1]
  simp only
  rw [if_neg (by rw [h2]; decide), if_neg (by rw [h2]; decide), if_pos h2, h3]
  unfold newFSStore
  rw [if_neg h0]

example : URL.string { URL.zero with scheme := b!"file", path := b!"/a b?#%" } = b!"file:///a%20b%3F%23%25" := by
  decide +kernel

/-! ## C114 -/

theorem clean_base (p : Bytes) : clean (pathBase p) = pathBase p := by
  rcases pathBase_cases p with h | ⟨h1, h2⟩
  · rw [h]; rfl
  · generalize pathBase p = b at h1 h2
    by_cases hd : b = b!"."
    · subst hd; rfl
    by_cases hdd : b = b!".."
    · subst hdd; rfl
    have hg : Good b := ⟨h1, hd, hdd, h2⟩
    have hh : b.head? ≠ some 47 := by
      intro h
      cases b with
      | nil => simp at h
      | cons c b => simp at h; subst h; exact h2 (by simp)
    have hc : cleanComps b = [b] := by
      unfold cleanComps
      rw [splitByte_self h2]
      simp only [List.foldl_cons, List.foldl_nil]
      rw [cleanStep_good hg]
      rfl
    unfold clean
    rw [if_neg hh, hc]
    rfl

theorem pathBase_ne_nil (p : Bytes) : pathBase p ≠ [] := by
  rcases pathBase_cases p with h | ⟨h1, _⟩
  · rw [h]; simp
  · exact h1

theorem join_base_ne_nil {a : Bytes} (h : a = [] ∨ a.head? = some 47) (p : Bytes) : pathJoin a (pathBase p) ≠ [] := by
  have hb := pathBase_ne_nil p
  rcases h with rfl | h
  · unfold pathJoin
    rw [if_neg (fun h => hb h.2), if_pos rfl, clean_base]
    exact hb
  · rw [pathJoin_rooted h hb]
    unfold absPath; simp

/-- C114: for a base URL with a host (whose zone, if it is an IP literal with one, is ASCII), the request of an `HTTPStore`
goes to the same scheme, user, host, query and fragment, and to the path of the base URL followed by the last component of the
derivation path. -/
theorem C114_request (uri : Bytes) (u : URL) (p : Bytes) (hu : parse uri = .ok u) (hs : u.scheme = b!"http" ∨ u.scheme = b!"https")
    (hh : u.host ≠ []) (hz : ZoneOk u.host) :
    ∃ r, HTTPStore.constructRequest ⟨u⟩ p = .ok r ∧ r.scheme = u.scheme ∧ r.opaq = [] ∧ r.user = u.user ∧
      r.host = trimColon u.host ∧ r.omitHost = false ∧ r.forceQuery = u.forceQuery ∧ r.rawQuery = u.rawQuery ∧
      r.fragment = u.fragment ∧
      r.path = if u.path = [] ∧ pathBase p ≠ b!"/" then b!"/" ++ pathBase p else clean (u.path ++ b!"/" ++ pathBase p) := by
  have hp := parse_parsed hu hh
  have hb := pathBase_ne_nil p
  obtain ⟨r, h1, h2, h3, h4, h5, h6, h7, h8, h9, h10⟩ := (parse_string hp hs hh _ (join_base_ne_nil hp.path p)).1 hz
  refine ⟨{ r with host := trimColon r.host }, ?_, h2, h3, h4, ?_, h7, h8, h9, h10, ?_⟩
  · unfold HTTPStore.constructRequest HTTPStore.getURL
    simp only
    rw [h1]
    rfl
  · simp only; rw [h5]
  · simp only
    rw [h6]
    by_cases hu0 : u.path = []
    · have e : pathJoin u.path (pathBase p) = pathBase p := by
        unfold pathJoin
        rw [if_neg (fun h => hb h.2), if_pos hu0, clean_base]
      rw [e]
      rcases pathBase_cases p with h | ⟨_, h47⟩
      · rw [h, hu0]; decide
      · rw [if_neg, if_pos]
        · refine ⟨hu0, ?_⟩
          intro h; rw [h] at h47; simp at h47
        · intro h
          apply h47
          exact List.mem_of_mem_head? (by rw [h]; rfl)
    · have h47 := hp.path.resolve_left hu0
      have e : pathJoin u.path (pathBase p) = clean (u.path ++ b!"/" ++ pathBase p) := by
        unfold pathJoin
        rw [if_neg (fun h => hu0 h.1), if_neg hu0, if_neg hb]
      rw [if_neg (fun h : u.path = [] ∧ _ => hu0 h.1), ← e]
      rw [if_pos]
      rw [pathJoin_rooted h47 hb]; rfl

/-- C114: for store paths, the request goes to the child of the base URL with the name of the store path; the
requests for different store paths differ. -/
theorem C114_store_path (uri : Bytes) (u : URL) (p : Bytes) (hu : parse uri = .ok u)
    (hs : u.scheme = b!"http" ∨ u.scheme = b!"https") (hh : u.host ≠ []) (hz : ZoneOk u.host) (hp : IsStorePath p) :
    ∃ r n, HTTPStore.constructRequest ⟨u⟩ p = .ok r ∧ p = b!"/nix/store/" ++ n ∧
      r.path = childPath (clean (if u.path = [] then b!"/" else u.path)) n ∧
      ∀ p', IsStorePath p' → HTTPStore.constructRequest ⟨u⟩ p' = .ok r → p' = p := by
  have key : ∀ p, IsStorePath p → ∃ r n, HTTPStore.constructRequest ⟨u⟩ p = .ok r ∧ p = b!"/nix/store/" ++ n ∧
      r.path = childPath (clean (if u.path = [] then b!"/" else u.path)) n := by
    intro p hp
    obtain ⟨r, h1, _, _, _, _, _, _, _, _, h2⟩ := C114_request uri u p hu hs hh hz
    obtain ⟨n, h3, h4, h5⟩ := storePath_base hp
    refine ⟨r, n, h1, h3, ?_⟩
    rw [h2, h4]
    by_cases hu0 : u.path = []
    · rw [if_pos ⟨hu0, fun e => h5.2.2.2 (by rw [e]; simp)⟩, if_pos hu0]
      rfl
    · rw [if_neg (fun h => hu0 h.1), if_neg hu0]
      have h47 := (parse_parsed hu hh).path.resolve_left hu0
      rw [← pathJoin_child h47 h5]
      unfold pathJoin
      rw [if_neg (fun h => hu0 h.1), if_neg hu0, if_neg h5.1]
  obtain ⟨r, n, h1, h2, h3⟩ := key p hp
  refine ⟨r, n, h1, h2, h3, ?_⟩
  intro p' hp' h'
  obtain ⟨r', n', h1', h2', h3'⟩ := key p' hp'
  rw [h'] at h1'
  have := Res.ok.inj h1'
  subst this
  rw [h3] at h3'
  rw [h2, h2', childPath_inj h3']

/-- C114: the condition on the zone is needed: otherwise there is no request at all. -/
theorem C114_zone (uri : Bytes) (u : URL) (p : Bytes) (hu : parse uri = .ok u) (hs : u.scheme = b!"http" ∨ u.scheme = b!"https")
    (hh : u.host ≠ []) : (∃ r, HTTPStore.constructRequest ⟨u⟩ p = .ok r) ↔ ZoneOk u.host := by
  constructor
  · rintro ⟨r, hr⟩
    have hp := parse_parsed hu hh
    unfold HTTPStore.constructRequest HTTPStore.getURL at hr
    simp only at hr
    cases hx : parse (URL.string { u with path := pathJoin u.path (pathBase p) }) with
    | err e => rw [hx] at hr; simp at hr
    | panic => rw [hx] at hr; simp at hr
    | ok v => exact (parse_string hp hs hh _ (join_base_ne_nil hp.path p)).2 v hx
  · intro hz
    obtain ⟨r, h, _⟩ := C114_request uri u p hu hs hh hz
    exact ⟨r, h⟩

/-- C114: with an opaque base URL (`http:x`), all derivations are requested at the same place. -/
theorem C114_opaque (u : URL) (h : u.opaq ≠ []) (p p' : Bytes) :
    HTTPStore.constructRequest ⟨u⟩ p = HTTPStore.constructRequest ⟨u⟩ p' := by
  unfold HTTPStore.constructRequest HTTPStore.getURL URL.string
  simp only
  rw [if_pos h, if_pos h]
  rfl

/-- C114 without the conditions is false: an opaque base URL is accepted, without a host the derivation name becomes the
host, an escaped slash in the base URL becomes a slash, and with a zone that is not ASCII there is no request. -/
theorem C114_refuted :
    (∃ u, newFromURI b!"http:x" = .ok (.http ⟨u⟩) ∧ u.opaq = b!"x") ∧
    (∃ u r, newFromURI b!"http://" = .ok (.http ⟨u⟩) ∧ HTTPStore.constructRequest ⟨u⟩ b!"/nix/store/a.drv" = .ok r ∧
      r.host = b!"a.drv" ∧ r.path = []) ∧
    (∃ u r, newFromURI b!"http://h/a%2Fb" = .ok (.http ⟨u⟩) ∧ HTTPStore.constructRequest ⟨u⟩ b!"/nix/store/a.drv" = .ok r ∧
      r.string = b!"http://h/a/b/a.drv") ∧
    (∃ u e, newFromURI (b!"http://[::1%25" ++ [195, 169] ++ b!"]/") = .ok (.http ⟨u⟩) ∧
      HTTPStore.constructRequest ⟨u⟩ b!"/nix/store/a.drv" = .err e) := by
  refine ⟨⟨{ URL.zero with scheme := b!"http", opaq := b!"x" }, by decide +kernel, by decide +kernel⟩,
    ⟨{ URL.zero with scheme := b!"http" }, { URL.zero with scheme := b!"http", host := b!"a.drv" }, by decide +kernel,
      by decide +kernel, by decide +kernel, by decide +kernel⟩,
    ⟨{ URL.zero with scheme := b!"http", host := b!"h", path := b!"/a/b", rawPath := b!"/a%2Fb" },
      { URL.zero with scheme := b!"http", host := b!"h", path := b!"/a/b/a.drv" }, by decide +kernel, by decide +kernel,
      by decide +kernel⟩,
    ⟨{ URL.zero with scheme := b!"http", host := b!"[::1%" ++ [195, 169] ++ b!"]", path := b!"/" },
      .msg "error constructing request", by decide +kernel, by decide +kernel⟩⟩

example : ∃ u, parse b!"https://me:pw@[fe80::1%25en0]:80/a%20b/?x=1#f" = .ok u ∧ u.scheme = b!"https" ∧ u.host ≠ [] ∧
    ZoneOk u.host ∧ u.host = b!"[fe80::1%en0]:80" ∧ (HTTPStore.constructRequest ⟨u⟩ b!"/nix/store/a.drv" >>= fun r => .ok r.string) =
      .ok b!"https://me:pw@[fe80::1%25en0]:80/a%20b/a.drv?x=1#f" := by
  refine ⟨⟨b!"https", [], some (b!"me", some b!"pw"), b!"[fe80::1%en0]:80", b!"/a b/", [], false, false, b!"x=1", b!"f", []⟩, by decide +kernel, by decide, by decide, ?_, rfl, by decide +kernel⟩
  intro _; decide

end Verif.Props
