import Verif.Proofs.StoreScan

/-!
# Scans of the store that overlap other requests (C83)

`before` are the requests before the scan, `es` what happens during it: other requests, the cleanup, and the steps of the scan itself
(`Model/StoreScan.lean`).  `n` is the number of shards of the map, `home` the shard of a key.  `during dflt before es1` is the map when
the events `es1` of the scan have happened; a key is there *all the time* if it is there at every such moment.
-/

namespace Verif.Store

namespace Ex

/-- Four shards; the home of a key is its first byte modulo 4. -/
def home : Str → Nat := fun k => (k.headD 0).toNat % 4

theorem home_lt : ∀ k, home k < 4 := fun _ => Nat.mod_lt _ (by decide)

def before : List Op := [.set [97] [1] (some 100) 0, .set [98] [2] (some 100) 0, .set [99] [3] (some 1) 0, .set [100] [4] (some 100) 0]

/-- While the scan is under way "d" (in a shard already visited) is deleted and "a" written anew, "i" and "j" are added. -/
def scanning : List ScanEv :=
  [.count, .count, .op (.set [105] [5] (some 100) 50), .count, .count, .clock 2000000000, .visit id, .op (.del [100]),
   .op (.set [97] [9] (some 100) 60), .visit List.reverse, .op (.set [106] [6] (some 100) 70), .visit id, .visit id]

theorem faithful : Faithful scanning := by
  intro o ho m
  simp only [scanning, List.mem_cons, List.not_mem_nil, or_false, ScanEv.visit.injEq, reduceCtorEq, false_or] at ho
  rcases ho with rfl | rfl | rfl | rfl
  · exact List.Perm.refl _
  · exact List.reverse_perm _
  · exact List.Perm.refl _
  · exact List.Perm.refl _

def result : Nat × List KeyEntry := ((Scan.start (Store.run 60 [] before).1).run 60 4 home scanning).result 10 0 none

end Ex

/-- "d" was there when its shard was visited; "c" has expired. -/
example : Ex.result.1 = 4 ∧ Ex.result.2.map (fun e => (e.key, e.payload)) = [([100], [4]), ([97], [9]), ([105], [5]), ([98], [2]), ([106], [6])] := by
  decide

section

variable {dflt n : Nat} {home : Str → Nat} {before : List Op} {es : List ScanEv} {limit offset : Nat} {filter : Option Str}

/-- **C83** Whatever happens during a scan, it lists no key twice, at most `limit` of them, and each contains the filter. -/
theorem C83_once (hf : Faithful es) :
    let r := ((Scan.start (Store.run dflt [] before).1).run dflt n home es).result limit offset filter
    (r.2.map (·.key)).Nodup ∧ r.2.length ≤ limit ∧ ∀ e ∈ r.2, ∀ f, filter = some f → f <:+: e.key := by
  have h := ScanInv.run (dflt := dflt) (n := n) (home := home) (before := before) hf
  simp only [Scan.result]
  generalize (Scan.start (Store.run dflt [] before).1).run dflt n home es = s at h
  have hsub : ((((s.matching filter).drop offset).take limit).filterMap (liveEntry (s.now.getD 0))).map (·.key)
      |>.Sublist (s.seen.map (·.1)) := by
    have h1 : (((s.matching filter).drop offset).take limit).Sublist s.seen :=
      ((List.take_sublist _ _).trans (List.drop_sublist _ _)).trans List.filter_sublist
    have h2 : ∀ l : Map, ((l.filterMap (liveEntry (s.now.getD 0))).map (·.key)).Sublist (l.map (·.1)) := by
      intro l
      induction l with
      | nil => exact List.Sublist.slnil
      | cons e l ih =>
        rw [List.filterMap_cons, List.map_cons]
        cases hl : liveEntry (s.now.getD 0) e with
        | none => exact ih.cons _
        | some x =>
          have hx : x.key = e.1 := by
            unfold liveEntry at hl
            split at hl
            · split at hl
              · cases hl
              · cases hl; rfl
            · cases hl; rfl
          rw [List.map_cons, hx]
          exact ih.cons_cons _
    exact (h2 _).trans (h1.map _)
  refine ⟨hsub.nodup h.nodup, ?_, ?_⟩
  · exact Nat.le_trans (List.length_filterMap_le _ _) (by rw [List.length_take]; omega)
  · intro e he f hfl
    obtain ⟨p, hp, hl⟩ := List.mem_filterMap.1 he
    have := (List.mem_filter.1 (List.mem_of_mem_drop (List.mem_of_mem_take hp))).2
    rw [hfl] at this
    have hx : e.key = p.1 := by
      unfold liveEntry at hl
      split at hl
      · split at hl
        · cases hl
        · cases hl; rfl
      · cases hl; rfl
    rw [hx]
    exact (contains_iff _ _).1 this

/-- **C83** A key is listed with a value it had at some moment of the scan: with the value that GET returned for it then, at the
clock reading of the scan. -/
theorem C83_sound (hf : Faithful es) (e : KeyEntry)
    (he : e ∈ (((Scan.start (Store.run dflt [] before).1).run dflt n home es).result limit offset filter).2) :
    ∃ es1 es2 now, es = es1 ++ es2 ∧ .clock now ∈ es1
      ∧ (Store.step dflt (during dflt before es1) (.get e.key now)).2 = .value (some e.payload) := by
  have h := ScanInv.run (dflt := dflt) (n := n) (home := home) (before := before) hf
  simp only [Scan.result] at he
  generalize (Scan.start (Store.run dflt [] before).1).run dflt n home es = s at h he
  obtain ⟨p, hp, hl⟩ := List.mem_filterMap.1 he
  obtain ⟨a, b, h1, ⟨now, h2, h3⟩, h4⟩ := h.there p (List.mem_filter.1 (List.mem_of_mem_drop (List.mem_of_mem_take hp))).1
  refine ⟨a, b, now, h1, h3, ?_⟩
  rw [h2, Option.getD_some] at hl
  unfold liveEntry at hl
  simp only [Store.step, get]
  split at hl
  · next x hx =>
    split at hl
    · cases hl
    · cases hl
      simp only [h4, hx]
      rw [if_neg (by omega)]
  · next hx => cases hl; simp only [h4, hx]

/-- **C83** A key that holds the same value all the time, not expired and containing the filter, is listed by every scan from the
start whose limit is at least the number of keys there were when it began plus the number of SETs during it. -/
theorem C83_complete (hf : Faithful es) (hn : ∀ k, home k < n)
    (hd : ((Scan.start (Store.run dflt [] before).1).run dflt n home es).done n limit 0 filter)
    (hlim : (Store.run dflt [] before).1.length + sets (opsOf es) ≤ limit) (key : Str) (v : Bytes) (expires : Nat)
    (hthere : ∀ es1 es2, es = es1 ++ es2 → mget (during dflt before es1) key = some ⟨v, some expires⟩)
    (hkey : ∀ f, filter = some f → f <:+: key) (hlive : ∀ now, .clock now ∈ es → now < expires) :
    ∃ e ∈ (((Scan.start (Store.run dflt [] before).1).run dflt n home es).result limit 0 filter).2, e.key = key ∧ e.payload = v := by
  have h := ScanInv.run (dflt := dflt) (n := n) (home := home) (before := before) hf
  have hle := seen_le (dflt := dflt) (n := n) (home := home) (before := before) hf
  have hmap := Scan.m_eq dflt n home before es
  simp only [Scan.result] at hle ⊢
  generalize (Scan.start (Store.run dflt [] before).1).run dflt n home es = s at h hd hle hmap
  obtain ⟨hs, hd⟩ := hd
  obtain ⟨now, hnow⟩ := Option.isSome_iff_exists.1 hs
  have hlen : (s.matching filter).length ≤ s.seen.length := List.length_filter_le _ _
  have hv : home key < s.visited := by
    by_cases hk : home key < s.visited
    · exact hk
    · have hin : (key, ⟨v, some expires⟩) ∈ later home s.visited s.m :=
        List.mem_filter.2 ⟨mget_some_mem (by rw [hmap]; exact hthere es [] (by simp)), by simpa using Nat.le_of_not_lt hk⟩
      have hpos := List.length_pos_of_mem hin
      have := hn key
      rcases hd with h | h | h <;> omega
  have hm : (key, ⟨v, some expires⟩) ∈ s.matching filter := by
    refine List.mem_filter.2 ⟨h.all key _ hthere hv, ?_⟩
    cases filter with
    | none => rfl
    | some f => exact (contains_iff _ _).2 (hkey f rfl)
  have hx := hlive now (h.clock now hnow)
  refine ⟨⟨key, v, some expires⟩, List.mem_filterMap.2 ⟨(key, ⟨v, some expires⟩), ?_, ?_⟩, rfl, rfl⟩
  · rw [List.drop_zero, List.take_of_length_le (by omega)]; exact hm
  · rw [hnow, Option.getD_some, liveEntry]
    simp only
    rw [if_neg (by omega)]

/-- **C83** The reported total is at least the number of keys that are there all the time, and at most the number of keys at the
start plus the number of SETs during the scan. -/
theorem C83_total (hn : ∀ k, home k < n)
    (hd : ((Scan.start (Store.run dflt [] before).1).run dflt n home es).done n limit offset filter) {K : List Str} (hK : K.Nodup)
    (hthere : ∀ es1 es2, es = es1 ++ es2 → ∀ k ∈ K, mhas (during dflt before es1) k = true) :
    let r := ((Scan.start (Store.run dflt [] before).1).run dflt n home es).result limit offset filter
    K.length ≤ r.1 ∧ r.1 ≤ (Store.run dflt [] before).1.length + sets (opsOf es) := by
  have h1 := total_ge (dflt := dflt) (n := n) (home := home) (before := before) hK hthere
  have h2 := total_le (dflt := dflt) (before := before) (es := es) hn
  have hc := counted_all (dflt := dflt) (n := n) (home := home) (before := before) (es := es)
  simp only [Scan.result] at h1 h2 ⊢
  generalize (Scan.start (Store.run dflt [] before).1).run dflt n home es = s at h1 h2 hd hc
  refine ⟨?_, by omega⟩
  rw [hc hd.1] at h1
  rwa [List.filter_eq_self.2 (fun k _ => by simpa using hn k)] at h1

end
/-! ### What does not hold -/

/-- **C83 does not hold** for the total: it counts the keys that do not contain the filter, and those that have expired.  Nothing
else happens during this scan. -/
theorem C83_violated_total :
    let r := ((Scan.start (Store.run 60 [] Ex.before).1).run 60 4 Ex.home
      [.count, .count, .count, .count, .clock 2000000000, .visit id, .visit id, .visit id, .visit id]).result 10 0
    ((r (some [97])).1 = 4 ∧ (r (some [97])).2.map (·.key) = [[97]]) ∧ (r none).1 = 4 ∧ (r none).2.map (·.key) = [[100], [97], [98]] := by
  decide

/-- **C83 does not hold** for the end of the list: a page that is not full need not be the last one.  The expired key "c" takes the
only place of the last but one page. -/
theorem C83_violated_page :
    let s := (Scan.start (Store.run 60 [] (Ex.before ++ [.set [103] [7] (some 100) 0])).1).run 60 4 Ex.home
      [.count, .count, .count, .count, .clock 2000000000, .visit id, .visit id, .visit id, .visit id]
    (s.result 1 3 none).2 = [] ∧ (s.result 1 4 none).2.map (·.key) = [[103]] := by
  decide

/-! ### The hypotheses can be met -/

example : ∃ es1 es2 now, Ex.scanning = es1 ++ es2 ∧ .clock now ∈ es1
    ∧ (Store.step 60 (during 60 Ex.before es1) (.get [97] now)).2 = .value (some [9]) :=
  C83_sound (n := 4) (home := Ex.home) (limit := 10) (offset := 0) (filter := none) Ex.faithful ⟨[97], [9], some 100000000060⟩ (by decide)

theorem Ex.there_b : ∀ es1 es2, Ex.scanning = es1 ++ es2 → mget (during 60 Ex.before es1) [98] = some ⟨[2], some 100000000000⟩ := by
  intro a b h
  have key : ∀ i < 14, mget (during 60 Ex.before (Ex.scanning.take i)) [98] = some ⟨[2], some 100000000000⟩ := by decide
  have hl := congrArg List.length h
  rw [List.length_append] at hl
  have := key a.length (by have : Ex.scanning.length = 13 := rfl; omega)
  rwa [h, List.take_left] at this

example : ∃ e ∈ (((Scan.start (Store.run 60 [] Ex.before).1).run 60 4 Ex.home Ex.scanning).result 7 0 none).2,
    e.key = [98] ∧ e.payload = [2] :=
  C83_complete Ex.faithful Ex.home_lt ⟨by decide, .inl (by decide)⟩ (by decide) [98] [2] 100000000000 Ex.there_b (by intro f h; cases h)
    (by intro now h; simp [Ex.scanning] at h; omega)

example : [([98] : Str)].length ≤ Ex.result.1 ∧ Ex.result.1 ≤ (Store.run 60 [] Ex.before).1.length + sets (opsOf Ex.scanning) :=
  C83_total (dflt := 60) (before := Ex.before) (es := Ex.scanning) (limit := 10) (offset := 0) (filter := none) Ex.home_lt ⟨by decide, .inl (by decide)⟩ (by simp)
    (fun a b h k hk => by rw [List.mem_singleton.1 hk, mhas, Ex.there_b a b h]; rfl)

end Verif.Store
