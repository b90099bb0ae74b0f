import Verif.Spec.References
import Verif.Lemmas.GoMap
import Verif.Lemmas.Storepath

/-!
# Reference scanning: C45-C48, C74

`newReferenceScanner ps = .ok r` is a successful `NewReferenceScanner`; `r.writes chunks` is the
scanner after `Write` calls with the given data; `References()` visits the set of hits in any
order.
-/

namespace Verif.References
open Verif.GoLib Verif.Nixbase32 Verif.Storepath Verif.Spec Verif.Props

theorem is_digit (c : UInt8) : Nixbase32.is c = decide (c ∈ nixDigits) := by
  have := C06_is_iff c
  cases h : Nixbase32.is c with
  | true => exact (decide_eq_true (this.1 h)).symm
  | false =>
    rw [h] at this
    refine (decide_eq_false ?_).symm
    intro hm
    exact absurd (this.2 hm) (by simp)

theorem run_snoc (d : Bytes) (c : UInt8) : run (d ++ [c]) = if c ∈ nixDigits then run d + 1 else 0 := by
  unfold run
  rw [List.reverse_append]
  simp only [List.reverse_cons, List.reverse_nil, List.nil_append, List.cons_append, List.takeWhile_cons]
  by_cases h : c ∈ nixDigits <;> simp [h]

theorem run_append (a h : Bytes) (hh : ∀ c ∈ h, c ∈ nixDigits) : run (a ++ h) = run a + h.length := by
  induction h generalizing a with
  | nil => simp
  | cons c h ih =>
    have : a ++ c :: h = (a ++ [c]) ++ h := by simp
    rw [this, ih _ (fun x hx => hh x (List.mem_cons_of_mem _ hx)), run_snoc, if_pos (hh c (by simp))]
    simp; omega

theorem run_le (d : Bytes) : run d ≤ d.length := by
  unfold run
  have := (List.takeWhile_prefix (fun c => decide (c ∈ nixDigits)) (l := d.reverse)).length_le
  simpa using this

/-- the last characters of a run -/
theorem run_suffix (d : Bytes) (k : Nat) (h : k ≤ run d) : ∀ c ∈ d.drop (d.length - k), c ∈ nixDigits := by
  intro c hc
  have h1 : d.drop (d.length - k) = (d.reverse.take k).reverse := by
    rw [List.reverse_take]
    simp
  rw [h1, List.mem_reverse] at hc
  have h2 : d.reverse.take k = (d.reverse.takeWhile fun c => decide (c ∈ nixDigits)).take k := by
    obtain ⟨t, ht⟩ := List.takeWhile_prefix (fun c => decide (c ∈ nixDigits)) (l := d.reverse)
    conv => lhs; rw [← ht]
    rw [List.take_append_of_le_length h]
  rw [h2] at hc
  have := List.all_takeWhile (p := fun c => decide (c ∈ nixDigits)) (l := d.reverse)
  rw [List.all_eq_true] at this
  simpa using this c (List.mem_of_mem_take hc)

/-- what the scanner knows after the data `d` -/
structure Inv (r : Scanner) (d : Bytes) : Prop where
  n : r.n = run d % 32
  len : r.buf.length = 32
  buf : r.buf.take r.n = d.drop (d.length - r.n)
  hits : ∀ h, h ∈ r.hits.keys ↔ h ∈ r.hashes.keys ∧ Aligned h d
  nodup : r.hits.keys.Nodup

theorem aligned_snoc (h d : Bytes) (c : UInt8) : Aligned h (d ++ [c]) ↔
    Aligned h d ∨ (c ∈ nixDigits ∧ (run d + 1) % 32 = 0 ∧ 32 ≤ d.length + 1 ∧ h = (d ++ [c]).drop (d.length + 1 - 32)) := by
  constructor
  · rintro ⟨a, t, he, hh, hr⟩
    rcases List.eq_nil_or_concat t with rfl | ⟨t', x, rfl⟩
    · right
      rw [List.append_nil] at he
      have hl := hh.1
      have hlen := congrArg List.length he
      simp [hl] at hlen
      have hrun : run (d ++ [c]) = run a + 32 := by rw [he, run_append a h hh.2, hl]
      rw [run_snoc] at hrun
      by_cases hc : c ∈ nixDigits
      · rw [if_pos hc] at hrun
        refine ⟨hc, by omega, by omega, ?_⟩
        rw [he, List.drop_append, List.drop_of_length_le (by omega)]
        have : d.length + 1 - 32 - a.length = 0 := by omega
        rw [this]; simp
      · rw [if_neg hc] at hrun; omega
    · left
      have he : d ++ [c] = (a ++ h ++ t') ++ [x] := by simpa using he
      obtain ⟨h1, h2⟩ := List.append_inj' he rfl
      exact ⟨a, t', h1, hh, hr⟩
  · rintro (⟨a, t, he, hh, hr⟩ | ⟨hc, hr, hlen, he⟩)
    · exact ⟨a, t ++ [c], by rw [he]; simp, hh, hr⟩
    · have hle : 32 ≤ run (d ++ [c]) := by
        rw [run_snoc, if_pos hc]; omega
      have hdig : ∀ x ∈ h, x ∈ nixDigits := by
        rw [he]
        have := run_suffix (d ++ [c]) 32 hle
        simpa using this
      have hl : h.length = 32 := by rw [he]; simp; omega
      refine ⟨(d ++ [c]).take (d.length + 1 - 32), [], ?_, ⟨hl, hdig⟩, ?_⟩
      · rw [List.append_nil, he, List.take_append_drop]
      · have := run_append ((d ++ [c]).take (d.length + 1 - 32)) h hdig
        rw [he, List.take_append_drop, run_snoc, if_pos hc, ← he, hl] at this
        omega

theorem hits_or {P Q : Prop} (h : ¬ Q) : P ∨ Q ↔ P := by simp [h]

theorem inv_byte {r : Scanner} {d : Bytes} (h : Inv r d) (c : UInt8) :
    Inv (r.byte c) (d ++ [c]) ∧ (r.byte c).hashes = r.hashes := by
  have e32 : refLength = 32 := rfl
  unfold Scanner.byte
  rw [is_digit]
  by_cases hc : c ∈ nixDigits
  · simp only [hc, decide_true, Bool.not_true, Bool.false_eq_true, if_false, e32]
    have hn := h.n
    have hlt : r.n < 32 := by omega
    have hrl := run_le d
    have hnl : r.n ≤ d.length := by omega
    have hbuf : (r.buf.set r.n c).take (r.n + 1) = (d ++ [c]).drop (d.length - r.n) := by
      rw [List.drop_append_of_le_length (by omega), ← h.buf]
      have hx : (r.buf.set r.n c)[r.n]? = some c := by
        rw [List.getElem?_set_self (by rw [h.len]; exact hlt)]
      rw [List.take_add_one, hx]
      congr 1
      rw [List.take_set_of_le (Nat.le_refl _)]
    have hbl : (r.buf.set r.n c).length = 32 := by simp [h.len]
    by_cases hfull : r.n + 1 = 32
    · simp only [hfull, if_true]
      have hr0 : (run d + 1) % 32 = 0 := by omega
      have hwin : r.buf.set r.n c = (d ++ [c]).drop (d.length + 1 - 32) := by
        have : (r.buf.set r.n c).take (r.n + 1) = r.buf.set r.n c := List.take_of_length_le (by omega)
        rw [← this, hbuf]
        congr 1
        omega
      have hal : ∀ x, Aligned x (d ++ [c]) ↔ Aligned x d ∨ x = r.buf.set r.n c := by
        intro x
        rw [aligned_snoc, hwin]
        have : 32 ≤ d.length + 1 := by omega
        simp [hc, hr0, this]
      have hmod : run (d ++ [c]) % 32 = 0 := by rw [run_snoc, if_pos hc]; exact hr0
      cases hg : r.hashes.get? (r.buf.set r.n c) with
      | none =>
        refine ⟨⟨hmod.symm, hbl, by simp, ?_, h.nodup⟩, rfl⟩
        intro x
        rw [hal, h.hits]
        have hnk : r.buf.set r.n c ∉ r.hashes.keys := by
          intro hk
          rw [← GoMap.get?_isSome, hg] at hk
          simp at hk
        constructor
        · rintro ⟨h1, h2⟩; exact ⟨h1, .inl h2⟩
        · rintro ⟨h1, h2 | h2⟩
          · exact ⟨h1, h2⟩
          · rw [h2] at h1; exact absurd h1 hnk
      | some p =>
        refine ⟨⟨hmod.symm, hbl, by simp, ?_, GoMap.keys_insert_nodup _ _ _ h.nodup⟩, rfl⟩
        intro x
        rw [hal]
        show x ∈ (r.hits.insert (r.buf.set r.n c) ()).keys ↔ _
        rw [GoMap.keys_insert_mem, h.hits]
        have hk : r.buf.set r.n c ∈ r.hashes.keys := by
          rw [← GoMap.get?_isSome, hg]; rfl
        constructor
        · rintro (h1 | ⟨h1, h2⟩)
          · rw [h1]; exact ⟨hk, .inr rfl⟩
          · exact ⟨h1, .inl h2⟩
        · rintro ⟨h1, h2 | h2⟩
          · exact .inr ⟨h1, h2⟩
          · exact .inl h2
    · simp only [hfull, if_false]
      have hmod : (run d + 1) % 32 = r.n + 1 := by omega
      refine ⟨⟨?_, hbl, ?_, ?_, h.nodup⟩, by first | rfl | trivial⟩
      · show r.n + 1 = _
        rw [run_snoc, if_pos hc, hmod]
      · show (r.buf.set r.n c).take (r.n + 1) = _
        rw [hbuf]
        congr 1
        simp
      · intro x
        rw [h.hits, aligned_snoc, hits_or (by rintro ⟨_, h1, _⟩; omega)]
  · simp only [hc, decide_false, Bool.not_false, if_true]
    refine ⟨⟨?_, h.len, ?_, ?_, h.nodup⟩, by first | rfl | trivial⟩
    · show 0 = _
      rw [run_snoc, if_neg hc]
    · simp
    · intro x
      rw [h.hits, aligned_snoc, hits_or (by rintro ⟨h1, _⟩; exact hc h1)]

theorem inv_write (s : Bytes) : ∀ {r d}, Inv r d →
    Inv (Scanner.write r s) (d ++ s) ∧ (Scanner.write r s).hashes = r.hashes := by
  induction s with
  | nil => intro r d h; simpa [Scanner.write] using h
  | cons c s ih =>
    intro r d h
    obtain ⟨h1, h2⟩ := inv_byte h c
    obtain ⟨h3, h4⟩ := ih h1
    have : d ++ c :: s = (d ++ [c]) ++ s := by simp
    rw [this]
    exact ⟨h3, by rw [← h2]; exact h4⟩

theorem writes_eq (chunks : List Bytes) : ∀ r : Scanner, r.writes chunks = r.write chunks.flatten := by
  induction chunks with
  | nil => intro r; rfl
  | cons c cs ih =>
    intro r
    show Scanner.writes (r.write c) cs = _
    rw [ih]
    simp [Scanner.write]

/-- what the candidates are stored as -/
structure Cands (m : GoMap Bytes) (ps : List Bytes) : Prop where
  nodup : m.keys.Nodup
  get : ∀ h p, m.get? h = some p ↔ LastWith p ps ∧ hashPart p = h

theorem candidates_spec (ps : List Bytes) : ∀ (m : GoMap Bytes) (done : List Bytes), Cands m done →
    (∀ m', candidates m ps = .ok m' → Cands m' (done ++ ps)) := by
  induction ps with
  | nil => intro m done h m' h'; simp [candidates] at h'; subst h'; simpa using h
  | cons p ps ih =>
    intro m done h m' h'
    unfold candidates at h'
    split at h'
    · simp at h'
    split at h'
    · simp at h'
    split at h'
    · simp at h'
    have : done ++ p :: ps = (done ++ [p]) ++ ps := by simp
    rw [this]
    refine ih _ (done ++ [p]) ⟨GoMap.keys_insert_nodup _ _ _ h.nodup, ?_⟩ m' h'
    intro k q
    have hkey : (p.drop storePrefixLength).take refLength = hashPart p := rfl
    rw [hkey, GoMap.get?_insert]
    split
    · rename_i hk
      subst hk
      simp only [Option.some.injEq]
      constructor
      · rintro rfl
        exact ⟨⟨done, [], rfl, by simp⟩, rfl⟩
      · rintro ⟨⟨l, r, he, hq⟩, hpart⟩
        rcases List.eq_nil_or_concat r with rfl | ⟨r', x, rfl⟩
        · exact (List.append_inj' he rfl).2 |> fun h => by simpa using h
        · have he : done ++ [p] = (l ++ q :: r') ++ [x] := by simpa using he
          have hx := (List.append_inj' he rfl).2
          simp at hx
          subst hx
          exact absurd hpart.symm (hq p (by simp))
    · rename_i hk
      rw [h.get]
      constructor
      · rintro ⟨⟨l, r, rfl, hq⟩, hpart⟩
        refine ⟨⟨l, r ++ [p], by simp, ?_⟩, hpart⟩
        intro x hx
        rcases List.mem_append.1 hx with hx | hx
        · exact hq x hx
        · rw [List.mem_singleton.1 hx, hpart]; exact hk
      · rintro ⟨⟨l, r, he, hq⟩, hpart⟩
        refine ⟨?_, hpart⟩
        rcases List.eq_nil_or_concat r with rfl | ⟨r', x, rfl⟩
        · have hx := (List.append_inj' he rfl).2
          simp at hx
          subst hx
          exact absurd hpart hk
        · have he : done ++ [p] = (l ++ q :: r') ++ [x] := by simpa using he
          obtain ⟨h1, h2⟩ := List.append_inj' he rfl
          exact ⟨l, r', h1, fun y hy => hq y (by simp [hy])⟩

/-- the scanner after the data was written -/
theorem scanner_spec {ps : List Bytes} {r : Scanner} (h : newReferenceScanner ps = .ok r) (chunks : List Bytes) :
    Inv (r.writes chunks) chunks.flatten ∧ Cands (r.writes chunks).hashes ps := by
  unfold newReferenceScanner at h
  rw [Res.bind_eq_ok] at h
  obtain ⟨m, hm, hr⟩ := h
  simp only [Res.ok.injEq] at hr
  have hc := candidates_spec ps [] [] ⟨by simp [GoMap.keys], by simp [GoMap.get?, LastWith]⟩ m hm
  have hi : Inv r [] := by
    subst hr
    refine ⟨by simp [run], by simp [refLength, alphabet], by simp, ?_, by simp [GoMap.keys]⟩
    intro h
    simp only [GoMap.keys, List.map_nil, List.not_mem_nil, false_iff, not_and]
    rintro _ ⟨a, c, he, hh, _⟩
    have := congrArg List.length he
    have hl := hh.1
    simp [hl] at this
    omega
  rw [writes_eq]
  obtain ⟨h1, h2⟩ := inv_write chunks.flatten hi
  rw [h2]
  refine ⟨by simpa using h1, ?_⟩
  subst hr
  simpa using hc

end Verif.References

namespace Verif.Props
open Verif.References Verif.Storepath Verif.GoLib Verif.Spec

theorem mem_references {ps : List Bytes} {r : Scanner} (h : newReferenceScanner ps = .ok r) (chunks : List Bytes)
    (order : List Bytes) (ho : order.Perm (r.writes chunks).hits.keys) (p : Bytes) :
    p ∈ (r.writes chunks).references order ↔ LastWith p ps ∧ Aligned (hashPart p) chunks.flatten := by
  obtain ⟨hi, hc⟩ := scanner_spec h chunks
  unfold Scanner.references
  rw [mem_sortStrings, List.mem_map]
  constructor
  · rintro ⟨x, hx, rfl⟩
    obtain ⟨h1, h2⟩ := (hi.hits x).1 (ho.mem_iff.1 hx)
    rw [← GoMap.get?_isSome] at h1
    obtain ⟨q, hq⟩ := Option.isSome_iff_exists.1 h1
    obtain ⟨h3, h4⟩ := (hc.get x q).1 hq
    rw [hq]
    exact ⟨h3, by rw [Option.getD_some, h4]; exact h2⟩
  · rintro ⟨h1, h2⟩
    have hg := (hc.get (hashPart p) p).2 ⟨h1, rfl⟩
    refine ⟨hashPart p, ho.mem_iff.2 ((hi.hits _).2 ⟨?_, h2⟩), by rw [hg]; rfl⟩
    rw [← GoMap.get?_isSome, hg]; rfl

/-! ## C45 -/

/-- C45: the state of the scanner, and so the references found, depend only on the concatenation
of the data. -/
theorem C45_chunking (r : Scanner) (a b : List Bytes) (h : a.flatten = b.flatten) : r.writes a = r.writes b := by
  rw [writes_eq, writes_eq, h]

example : [b!"/nix/st", b!"", b!"ore/00b"].flatten = [b!"/nix/store/00b"].flatten := by decide

/-! ## C46 -/

/-- C46: every path returned is a candidate, and its 32-character hash part occurs literally in the
data. -/
theorem C46_sound (ps : List Bytes) (r : Scanner) (h : newReferenceScanner ps = .ok r) (chunks : List Bytes)
    (order : List Bytes) (ho : order.Perm (r.writes chunks).hits.keys) (p : Bytes)
    (hp : p ∈ (r.writes chunks).references order) :
    p ∈ ps ∧ HashPart (hashPart p) ∧ Occurs (hashPart p) chunks.flatten := by
  obtain ⟨⟨l, t, he, _⟩, a, c, hd, hh, _⟩ := (mem_references h chunks order ho p).1 hp
  exact ⟨by rw [he]; simp, hh, a, c, hd⟩

/-- the candidates of the examples -/
def sampleCands : List Bytes := [b!"/nix/store/knn6wc1a89c47yb70qwv56rmxylia6wx-hello-2.12",
  b!"/nix/store/c4pcgriqgiwz8vxrjxg7p38q3y7w3ni3-go-1.18.2"]

/-- the data of the examples -/
def sampleData : List Bytes := [b!"x /nix/store/knn6wc1a89c47yb70", b!"qwv56rmxylia6wx-hello-2.12/bin/hello"]

example : ∃ r, newReferenceScanner sampleCands = .ok r ∧
    (r.writes sampleData).hits.keys = [b!"knn6wc1a89c47yb70qwv56rmxylia6wx"] ∧
    (r.writes sampleData).references [b!"knn6wc1a89c47yb70qwv56rmxylia6wx"] =
      [b!"/nix/store/knn6wc1a89c47yb70qwv56rmxylia6wx-hello-2.12"] :=
  ⟨_, rfl, by decide +kernel, by decide +kernel⟩

/-! ## C47 -/

/-- C47 is false: a hash part preceded by one more base32 character is missed. -/
theorem C47_refuted : ∃ ps r chunks p, newReferenceScanner ps = .ok r ∧ p ∈ ps ∧
    Occurs (hashPart p) (chunks : List Bytes).flatten ∧ (r.writes chunks).references (r.writes chunks).hits.keys = [] :=
  ⟨[b!"/nix/store/knn6wc1a89c47yb70qwv56rmxylia6wx-hello-2.12"], _, [b!"0knn6wc1a89c47yb70qwv56rmxylia6wx"],
    b!"/nix/store/knn6wc1a89c47yb70qwv56rmxylia6wx-hello-2.12", rfl, by decide, ⟨b!"0", [], by decide +kernel⟩,
    by decide +kernel⟩

/-- C47, what holds, exactly: a path is returned if and only if it is the last candidate with its
hash part and this hash part occurs at a position whose distance from the beginning of the
surrounding run of base32 characters is a multiple of 32. Missing: other occurrences, and earlier
candidates with the same hash part. -/
theorem C47_complete_partial (ps : List Bytes) (r : Scanner) (h : newReferenceScanner ps = .ok r)
    (chunks : List Bytes) (order : List Bytes) (ho : order.Perm (r.writes chunks).hits.keys) (p : Bytes) :
    p ∈ (r.writes chunks).references order ↔ LastWith p ps ∧ Aligned (hashPart p) chunks.flatten :=
  mem_references h chunks order ho p

/-- C47, the usual case: an occurrence directly after a character that is not base32 (such as the
slash of the store directory) or at the beginning is always found. -/
theorem C47_after_slash_partial (ps : List Bytes) (r : Scanner) (h : newReferenceScanner ps = .ok r)
    (chunks : List Bytes) (order : List Bytes) (ho : order.Perm (r.writes chunks).hits.keys) (p : Bytes)
    (hl : LastWith p ps) (hh : HashPart (hashPart p)) (a b : Bytes)
    (hd : chunks.flatten = a ++ hashPart p ++ b)
    (ha : a = [] ∨ ∃ a' c, a = a' ++ [c] ∧ c ∉ b!"0123456789abcdfghijklmnpqrsvwxyz") :
    p ∈ (r.writes chunks).references order := by
  rw [mem_references h chunks order ho p]
  refine ⟨hl, a, b, hd, hh, ?_⟩
  rcases ha with rfl | ⟨a', c, rfl, hc⟩
  · rfl
  · rw [run_snoc, if_neg (show c ∉ nixDigits from hc)]

example : LastWith b!"/nix/store/knn6wc1a89c47yb70qwv56rmxylia6wx-hello-2.12" sampleCands ∧
    HashPart (hashPart b!"/nix/store/knn6wc1a89c47yb70qwv56rmxylia6wx-hello-2.12") ∧
    sampleData.flatten = b!"x /nix/store/" ++ hashPart b!"/nix/store/knn6wc1a89c47yb70qwv56rmxylia6wx-hello-2.12" ++
      b!"-hello-2.12/bin/hello" :=
  ⟨⟨[], _, rfl, by decide +kernel⟩, by decide +kernel, by decide +kernel⟩

/-! ## C48 -/

/-- C48: the result is strictly sorted (so without duplicates) and does not depend on the order in
which the map of hits is visited. -/
theorem C48_sorted (ps : List Bytes) (r : Scanner) (h : newReferenceScanner ps = .ok r) (chunks : List Bytes)
    (order : List Bytes) (ho : order.Perm (r.writes chunks).hits.keys) :
    ((r.writes chunks).references order).Pairwise (· < ·) ∧
    ∀ order', order'.Perm (r.writes chunks).hits.keys →
      (r.writes chunks).references order' = (r.writes chunks).references order := by
  obtain ⟨hi, hc⟩ := scanner_spec h chunks
  constructor
  · refine sorted_nodup_lt (sortStrings_sorted _) (sortStrings_nodup ?_)
    have hn : order.Nodup := ho.nodup_iff.2 hi.nodup
    have hinj : ∀ x ∈ order, hashPart (((r.writes chunks).hashes.get? x).getD []) = x := by
      intro x hx
      obtain ⟨h1, _⟩ := (hi.hits x).1 (ho.mem_iff.1 hx)
      rw [← GoMap.get?_isSome] at h1
      obtain ⟨q, hq⟩ := Option.isSome_iff_exists.1 h1
      rw [hq]
      exact ((hc.get x q).1 hq).2
    clear ho
    induction order with
    | nil => simp
    | cons x l ih =>
      rw [List.nodup_cons] at hn
      rw [List.map_cons, List.nodup_cons]
      refine ⟨?_, ih hn.2 (fun y hy => hinj y (List.mem_cons_of_mem _ hy))⟩
      intro hm
      obtain ⟨y, hy, hxy⟩ := List.mem_map.1 hm
      have h1 := hinj x (by simp)
      rw [← hxy, hinj y (List.mem_cons_of_mem _ hy)] at h1
      subst h1
      exact hn.1 hy
  · intro order' ho'
    exact sortStrings_congr ((ho'.trans ho.symm).map _)

/-! ## C74 -/

/-- C74: `NewReferenceScanner` never panics; it accepts exactly the lists in which every path starts
with the store directory and has at least 45 bytes; then the map of hash parts holds for every hash
part the last candidate with it, and nothing else. -/
theorem C74_new_scanner (ps : List Bytes) :
    newReferenceScanner ps ≠ .panic ∧
    ((∃ r, newReferenceScanner ps = .ok r) ↔ ∀ p ∈ ps, (∃ t, p = b!"/nix/store" ++ t) ∧ 45 ≤ p.length) ∧
    (∀ r, newReferenceScanner ps = .ok r → r.hits = [] ∧
      ∀ h p, r.hashes.get? h = some p ↔ LastWith p ps ∧ hashPart p = h) := by
  have key : ∀ (ps : List Bytes) (m : GoMap Bytes), candidates m ps ≠ .panic ∧
      ((∃ m', candidates m ps = .ok m') ↔ ∀ p ∈ ps, (∃ t, p = b!"/nix/store" ++ t) ∧ 45 ≤ p.length) := by
    intro ps
    induction ps with
    | nil => intro m; simp [candidates]
    | cons p ps ih =>
      intro m
      unfold candidates
      have e1 : storeDir.length + refLength + 3 = 45 := rfl
      have e2 : storePrefixLength + refLength = 43 := rfl
      rw [e1, e2]
      have hpre : hasPrefix p storeDir = true ↔ ∃ t, p = b!"/nix/store" ++ t := by
        unfold hasPrefix
        rw [List.isPrefixOf_iff_prefix]
        constructor
        · rintro ⟨t, ht⟩; exact ⟨t, ht.symm⟩
        · rintro ⟨t, ht⟩; exact ⟨t, ht.symm⟩
      simp only [List.mem_cons, forall_eq_or_imp]
      rw [← hpre]
      by_cases h1 : hasPrefix p storeDir = true
      · rw [if_neg (by simp [h1])]
        by_cases h2 : p.length < 45
        · rw [if_pos h2]
          simp; omega
        · rw [if_neg h2, if_neg (by omega)]
          have := ih (m.insert ((p.drop storePrefixLength).take refLength) p)
          refine ⟨this.1, ?_⟩
          rw [this.2]
          constructor
          · intro h; exact ⟨⟨h1, by omega⟩, h⟩
          · intro h; exact h.2
      · rw [if_pos (by simp [h1])]
        simp [h1]
  refine ⟨?_, ?_, ?_⟩
  · unfold newReferenceScanner
    cases hc : candidates [] ps with
    | panic => exact absurd hc (key ps []).1
    | err e => simp
    | ok m => simp
  · rw [← (key ps []).2]
    unfold newReferenceScanner
    constructor
    · rintro ⟨r, hr⟩
      rw [Res.bind_eq_ok] at hr
      obtain ⟨m, hm, _⟩ := hr
      exact ⟨m, hm⟩
    · rintro ⟨m, hm⟩
      exact ⟨_, by rw [hm]; rfl⟩
  · intro r hr
    obtain ⟨_, hc⟩ := scanner_spec hr []
    refine ⟨?_, hc.get⟩
    unfold newReferenceScanner at hr
    rw [Res.bind_eq_ok] at hr
    obtain ⟨m, _, hm⟩ := hr
    simp only [Res.ok.injEq] at hm
    rw [← hm]

end Verif.Props
