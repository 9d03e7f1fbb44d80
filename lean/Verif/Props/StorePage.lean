import Verif.Model.StorePage
import Verif.Props.Store

/-! # C116: the dashboard's page of the store -/

namespace Verif.Store

variable {lossy : Bytes → Str} {parse : Bytes → Option Dashboard.Json}

/-- The entries that a page is about: those the scan has found, in its order. -/
def pageEntries (visited : Map) (p : Params) (scanned : Nat) : List KeyEntry := (scan visited (p.limit.getD 500) (p.offset.getD 0) p.search scanned).2

theorem details_some {now : Nat} {sys : Nat → Nat} (es : List KeyEntry) : ∀ (i : Nat) (ds : List KeyDetail), details lossy parse now sys i es = some ds →
    ds.length = es.length ∧ ∀ j d e, ds[j]? = some d → es[j]? = some e →
      d.key = e.key ∧ d.value = Dashboard.display lossy parse e.payload ∧ shownExpiry now (sys (i + j)) e.expiresAt = some d.expAt := by
  induction es with
  | nil =>
    intro i ds h
    simp only [details, Option.some.injEq] at h
    subst h
    exact ⟨rfl, fun j d e h => by simp at h⟩
  | cons x es ih =>
    intro i ds h
    unfold details at h
    split at h
    · cases h
    · next v hv =>
      split at h
      · cases h
      · next ds' hd =>
        simp only [Option.some.injEq] at h
        subst h
        obtain ⟨h1, h2⟩ := ih _ _ hd
        refine ⟨by simp [h1], fun j d e hj he => ?_⟩
        cases j with
        | zero =>
          simp only [List.getElem?_cons_zero, Option.some.injEq] at hj he
          subst hj he
          exact ⟨rfl, rfl, hv⟩
        | succ j =>
          simp only [List.getElem?_cons_succ] at hj he
          have := h2 j d e hj he
          rw [show i + 1 + j = i + (j + 1) by omega] at this
          exact this

theorem details_none {now : Nat} {sys : Nat → Nat} (es : List KeyEntry) : ∀ i, details lossy parse now sys i es = none ↔
    ∃ j e, es[j]? = some e ∧ shownExpiry now (sys (i + j)) e.expiresAt = none := by
  induction es with
  | nil => intro i; simp [details]
  | cons x es ih =>
    intro i
    unfold details
    cases hv : shownExpiry now (sys i) x.expiresAt with
    | none => exact ⟨fun _ => ⟨0, x, rfl, hv⟩, fun _ => rfl⟩
    | some v =>
      have := ih (i + 1)
      constructor
      · intro h
        have hn : details lossy parse now sys (i + 1) es = none := by
          cases hd : details lossy parse now sys (i + 1) es with
          | none => rfl
          | some ds => simp [hd] at h
        obtain ⟨j, e, h1, h2⟩ := this.1 hn
        exact ⟨j + 1, e, by simpa using h1, by rw [show i + (j + 1) = i + 1 + j by omega]; exact h2⟩
      · rintro ⟨j, e, h1, h2⟩
        cases j with
        | zero =>
          simp only [List.getElem?_cons_zero, Option.some.injEq] at h1
          subst h1
          rw [Nat.add_zero, hv] at h2
          cases h2
        | succ j =>
          have hn : details lossy parse now sys (i + 1) es = none :=
            this.2 ⟨j, e, by simpa using h1, by rw [show i + 1 + j = i + (j + 1) by omega]; exact h2⟩
          simp only [hn]

/-- **C116** The page lists the keys that the scan found, each with its value and its expiry: if the wall clock is `skew` ahead of the clock of
expiries and was read `late j` after it, then the moment shown is not before the moment at which the key expires, and after it by no more than
`late j` (the key may have expired meanwhile: then the present moment is shown). -/
theorem C116_shown {visited : Map} {p : Params} {scanned now skew : Nat} {late : Nat → Nat} {total : Nat} {ds : List KeyDetail}
    (h : page lossy parse visited p scanned now (fun j => skew + now + late j) = some (total, ds)) :
    ds.length = (pageEntries visited p scanned).length ∧ ∀ j d e, ds[j]? = some d → (pageEntries visited p scanned)[j]? = some e →
      d.key = e.key ∧ d.value = Dashboard.display lossy parse e.payload ∧ (e.expiresAt = none ↔ d.expAt = none) ∧
      ∀ x t, e.expiresAt = some x → d.expAt = some t → skew + max x now ≤ t ∧ t ≤ skew + max x now + late j := by
  unfold page at h
  simp only [Option.map_eq_some_iff, Prod.mk.injEq] at h
  obtain ⟨ds', h1, _, rfl⟩ := h
  obtain ⟨h2, h3⟩ := details_some _ _ _ h1
  refine ⟨h2, fun j d e hd he => ?_⟩
  obtain ⟨a, b, c⟩ := h3 j d e hd he
  refine ⟨a, b, ?_, ?_⟩
  · cases hx : e.expiresAt with
    | none =>
      rw [hx] at c
      simp only [shownExpiry, Option.some.injEq] at c
      simp [← c]
    | some x =>
      rw [hx] at c
      simp only [shownExpiry] at c
      split at c
      · simp only [Option.some.injEq] at c
        simp [← c]
      · cases c
  · intro x t hx ht
    rw [hx, ht] at c
    simp only [shownExpiry, Nat.zero_add] at c
    split at c
    · simp only [Option.some.injEq] at c
      omega
    · cases c

/-- **C116** The page is answered exactly if every key on it expires, by the wall clock, before the end of the calendar (the year 262142), or
not at all. -/
theorem C116_answered_partial {visited : Map} {p : Params} {scanned now : Nat} {sys : Nat → Nat} :
    page lossy parse visited p scanned now sys ≠ none ↔
      ∀ j e x, (pageEntries visited p scanned)[j]? = some e → e.expiresAt = some x → (sys j + (x - now)) / nanos ≤ lastSecond := by
  have hn : page lossy parse visited p scanned now sys = none ↔ details lossy parse now sys 0 (pageEntries visited p scanned) = none := by
    unfold page pageEntries
    simp
  rw [ne_eq, hn, details_none]
  constructor
  · intro h j e x he hx
    refine Classical.not_not.1 (fun hc => h ⟨j, e, he, ?_⟩)
    rw [hx, Nat.zero_add]
    simp only [shownExpiry]
    rw [if_neg (fun hh => hc hh.2)]
  · rintro h ⟨j, e, he, hs⟩
    cases hx : e.expiresAt with
    | none => rw [hx] at hs; simp [shownExpiry] at hs
    | some x =>
      have := h j e x he hx
      rw [hx, Nat.zero_add] at hs
      simp only [shownExpiry] at hs
      rw [if_pos ⟨Nat.lt_of_le_of_lt this (by decide), this⟩] at hs
      cases hs

theorem expiresAt_some {dflt ttl t0 x : Nat} (h : 10000000000000 ≤ ttl) (hx : expiresAt dflt (some ttl) t0 = some x) : x = t0 + ttl * nanos := by
  cases ttl with
  | zero => omega
  | succ n =>
    unfold expiresAt at hx
    simp only [instantAdd_eq] at hx
    by_cases hr : representable (t0 + (n + 1) * second)
    · rw [if_pos hr, Option.some.injEq] at hx
      exact hx.symm
    · rw [if_neg hr] at hx
      cases hx

/-- **C116** is violated: one SET with a TTL of 10^13 seconds or more that is accepted, and for the next 10^12 seconds (31 thousand years), unless the
key is deleted or set again, no page on which the key is found is answered.  The page of all keys is one of them. -/
theorem C116_violated {dflt : Nat} {m m' : Map} {key : Str} {value : Bytes} {ttl t0 : Nat} (httl : 10000000000000 ≤ ttl)
    (hset : set dflt m key value (some ttl) t0 = some m') {visited : Map} (hv : ∃ e ∈ visited, e.1 = key ∧ mget m' key = some e.2) {p : Params}
    (hl : visited.length ≤ p.limit.getD 500) (ho : p.offset.getD 0 = 0) (hs : p.search = none) {scanned now : Nat} (h1 : scanned ≤ now)
    (h2 : now ≤ t0 + 1000000000000 * nanos) (sys : Nat → Nat) :
    page lossy parse visited p scanned now sys = none := by
  have hx : mget m' key = some { value, expiresAt := some (t0 + ttl * nanos) } := by
    unfold set at hset
    cases hexp : expiresAt dflt (some ttl) t0 with
    | none => rw [hexp] at hset; cases hset
    | some x =>
      rw [hexp] at hset
      simp only [Option.some.injEq] at hset
      rw [← hset, mget_mset_same, expiresAt_some httl hexp]
  obtain ⟨e, he, hk, hm⟩ := hv
  rw [hx, Option.some.injEq] at hm
  have hlive : liveEntry scanned e = some ⟨e.1, e.2.value, e.2.expiresAt⟩ := by
    unfold liveEntry
    rw [← hm]
    simp only
    rw [if_neg]
    rw [show nanos = 1000000000 from rfl] at h2 ⊢
    omega
  have hmem : (⟨e.1, e.2.value, e.2.expiresAt⟩ : KeyEntry) ∈ pageEntries visited p scanned := by
    unfold pageEntries scan
    simp only [hs, ho, List.drop_zero]
    rw [List.filter_eq_self.2 (fun _ _ => rfl), List.take_of_length_le hl]
    exact List.mem_filterMap.2 ⟨e, he, hlive⟩
  refine Classical.not_not.1 (fun hc => ?_)
  obtain ⟨j, hj, hje⟩ := List.getElem_of_mem hmem
  have := C116_answered_partial.1 hc j _ (t0 + ttl * nanos) (by rw [List.getElem?_eq_getElem hj, hje]) (by rw [← hm])
  have hn : nanos = 1000000000 := rfl
  have hls : lastSecond = 8210266876799 := rfl
  rw [hn, hls] at this
  rw [hn] at h2
  omega

/-- The hypotheses are met: two keys, one without the long TTL; the page is answered before, and not after. -/
example : page (fun b => b) (fun _ => none) [([97], ⟨[1, 65], some 5000000000⟩), ([98], ⟨[1, 66], none⟩)] {} 1000000000 1000000001
      (fun j => 1700000000000000000 + j)
    = some (2, [⟨[97], .str [65], some 1700000003999999999⟩, ⟨[98], .str [66], none⟩]) := by decide +kernel

example : ∃ m', set 3600 [] [97] [1, 65] (some 10000000000000) 1000000000 = some m' ∧
    page (fun b => b) (fun _ => none) m' {} 1000000000 1000000001 (fun j => 1700000000000000000 + j) = none := by
  refine ⟨[([97], ⟨[1, 65], some 10000000000001000000000⟩)], ?_, ?_⟩
  · rw [set_eq, if_pos (by decide +kernel)]
    decide +kernel
  · decide +kernel

end Verif.Store
