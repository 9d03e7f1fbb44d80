import Verif.Proofs.Store

/-!
# Properties C09-C12: the key-value store
-/

namespace Verif.Store

/-- The example history: two writes of "a", a write and deletion of "b", cleanups; the default TTL is 60 s. -/
def exOps : List Op :=
  [.set [97] [1] (some 5) 0, .set [98] [2] none 1000, .set [97] [3] (some 10) 2000000000, .get [97] 3000000000,
   .sweep [97] 6000000000, .sweep [98] 6000000000, .del [98], .set [99] [4] (some 0) 7000000000]

/-! ## C09 -/

/-- C09, except at the very instant at which the value expires: after any history, a GET whose clock reading is
not before those of the cleanups returns the value of the last write until its time to live has elapsed, and
nothing afterwards; it returns nothing if the key was never written or has been deleted since. -/
theorem C09_latest_write_partial (dflt : Nat) (ops : List Op) (key : Str) {now : Nat} (hs : SweptBefore ops now) :
    (lastWrite dflt key ops = none → (step dflt (run dflt [] ops).1 (.get key now)).2 = .value none) ∧
    (∀ v x, lastWrite dflt key ops = some (v, x) → now < x → (step dflt (run dflt [] ops).1 (.get key now)).2 = .value (some v)) ∧
    (∀ v x, lastWrite dflt key ops = some (v, x) → x < now → (step dflt (run dflt [] ops).1 (.get key now)).2 = .value none) := by
  have h := stored dflt key ops
  simp only [step, get]
  cases hg : mget (run dflt [] ops).1 key with
  | none =>
    rw [hg] at h
    refine ⟨fun _ => rfl, ?_, fun _ _ _ _ => rfl⟩
    intro v x hl hx
    rcases h with h | ⟨v', x', t, h1, h2, h3⟩
    · rw [h] at hl; cases hl
    · rw [hl] at h1
      injection h1 with h1
      injection h1 with h4 h5
      have := hs key t h2
      omega
  | some e =>
    rw [hg] at h
    obtain ⟨x, h1, h2⟩ := h
    simp only [h2]
    refine ⟨fun hl => absurd (hl.symm.trans h1) nofun, ?_, ?_⟩
    · intro v x' hl hx
      rw [hl] at h1
      injection h1 with h1
      injection h1 with h4 h5
      rw [if_neg (by omega), h4]
    · intro v x' hl hx
      rw [hl] at h1
      injection h1 with h1
      injection h1 with h4 h5
      rw [if_pos (by omega)]

/-- C09 is violated at that instant: GET still returns the value, but not if the cleanup has just passed. -/
theorem C09_boundary_violated : ∃ (dflt : Nat) (ops : List Op) (key : Str) (now : Nat), SweptBefore ops now ∧
    (run dflt [] (ops ++ [.get key now, .sweep key now, .get key now])).2.drop ops.length = [.value (some [1]), .none, .value none] :=
  ⟨60, [.set [97] [1] (some 5) 0], [97], 5000000000, by intro k t h; simp at h, by decide⟩

example : SweptBefore exOps 11000000000 := by
  intro k t h
  simp only [exOps, List.mem_cons, List.not_mem_nil, or_false, Op.sweep.injEq, reduceCtorEq, false_or, or_self] at h
  omega
example : lastWrite 60 [97] exOps = some ([3], 12000000000) ∧ lastWrite 60 [98] exOps = none ∧
    lastWrite 60 [99] exOps = some ([4], 67000000000) := by decide

/-! ## C10 -/

/-- C10: once the time to live of the last SET has elapsed, neither GET nor any scan returns the key.  A missing
or zero TTL stands for the default TTL (see `expiry`). -/
theorem C10_expired_never_returned (dflt : Nat) (ops : List Op) (key : Str) {v : Bytes} {x now : Nat}
    (hl : lastWrite dflt key ops = some (v, x)) (hx : x < now) :
    (step dflt (run dflt [] ops).1 (.get key now)).2 = .value none ∧
    ∀ visited limit offset filter, visited.Perm (run dflt [] ops).1 → ∀ e ∈ (scan visited limit offset filter now).2, e.key ≠ key := by
  have h := stored dflt key ops
  constructor
  · simp only [step, get]
    cases hg : mget (run dflt [] ops).1 key with
    | none => rfl
    | some e =>
      rw [hg] at h
      obtain ⟨x', h1, h2⟩ := h
      rw [hl] at h1
      injection h1 with h1
      injection h1 with h4 h5
      simp only [h2]
      rw [if_pos (by omega)]
  · intro visited limit offset filter hp e he hk
    simp only [scan, List.mem_filterMap] at he
    obtain ⟨p, hp1, hp2⟩ := he
    have hmem : p ∈ visited := (List.mem_filter.1 (List.mem_of_mem_drop (List.mem_of_mem_take hp1))).1
    have hwf := wf dflt ops [] MWF.nil
    have hget := hwf.mem_iff.1 (hp.mem_iff.1 hmem)
    have hke : e.key = p.1 := by
      simp only [liveEntry] at hp2
      split at hp2
      · split at hp2
        · cases hp2
        · injection hp2 with hp2; rw [← hp2]
      · injection hp2 with hp2; rw [← hp2]
    rw [← hke, hk] at hget
    rw [hget] at h
    obtain ⟨x', h1, h2⟩ := h
    rw [hl] at h1
    injection h1 with h1
    injection h1 with h4 h5
    simp only [liveEntry, h2] at hp2
    rw [if_pos (by omega)] at hp2
    cases hp2

example : lastWrite 60 [99] exOps = some ([4], 7000000000 + 60 * second) ∧ 7000000000 + 60 * second < 67000000001 := by decide

/-! ## C11 -/

/-- C11: whatever the order in which the map is visited, a scan lists no key twice; every listed key contains the
filter and is listed with the value GET returns for it. -/
theorem C11_scan_sound (dflt : Nat) (ops : List Op) {visited : Map} (hp : visited.Perm (run dflt [] ops).1)
    (limit offset : Nat) (filter : Option Str) (now : Nat) :
    let r := (scan visited limit offset filter now).2
    (r.map (·.key)).Nodup ∧ r.length ≤ limit ∧
    ∀ e ∈ r, (∀ f, filter = some f → f <:+: e.key) ∧
      (step dflt (run dflt [] ops).1 (.get e.key now)).2 = .value (some e.payload) := by
  intro r
  have hwf := wf dflt ops [] MWF.nil
  have hnd : (visited.map (·.1)).Nodup := (hp.map _).nodup_iff.2 hwf
  let L := ((visited.filter (fun e => match filter with | some f => contains e.1 f | none => true)).drop offset).take limit
  have hr : r = L.filterMap (liveEntry now) := rfl
  have hkey : ∀ p e, liveEntry now p = some e → e.key = p.1 ∧ e.payload = p.2.value ∧ e.expiresAt = p.2.expiresAt ∧
      ∀ x, p.2.expiresAt = some x → now < x := by
    intro p e h
    simp only [liveEntry] at h
    split at h
    · next x hx =>
      split at h
      · cases h
      · next hlt =>
        injection h with h
        subst h
        refine ⟨rfl, rfl, rfl, ?_⟩
        intro y hy
        rw [hx] at hy; injection hy with hy; omega
    · next hx =>
      injection h with h
      subst h
      refine ⟨rfl, rfl, rfl, ?_⟩
      intro y hy; rw [hx] at hy; cases hy
  have hsub : L.Sublist visited := (List.take_sublist _ _).trans ((List.drop_sublist _ _).trans List.filter_sublist)
  refine ⟨?_, ?_, ?_⟩
  · have h1 : (L.map (·.1)).Nodup := hnd.sublist (hsub.map _)
    have h2 : ∀ l : Map, ((l.filterMap (liveEntry now)).map (·.key)).Sublist (l.map (·.1)) := by
      intro l
      induction l with
      | nil => exact List.Sublist.slnil
      | cons p t ih =>
        rw [List.filterMap_cons]
        split
        · exact List.Sublist.cons _ ih
        · next e he =>
          rw [List.map_cons, List.map_cons, (hkey p e he).1]
          exact ih.cons_cons _
    rw [hr]
    exact h1.sublist (h2 L)
  · rw [hr]
    exact Nat.le_trans (List.length_filterMap_le _ _) (List.length_take_le _ _)
  · intro e he
    rw [hr] at he
    obtain ⟨p, hp1, hp2⟩ := List.mem_filterMap.1 he
    obtain ⟨k1, k2, k3, k4⟩ := hkey p e hp2
    have hm := List.mem_filter.1 (List.mem_of_mem_drop (List.mem_of_mem_take hp1))
    refine ⟨?_, ?_⟩
    · intro f hf
      rw [hf] at hm
      rw [k1]
      exact (contains_iff _ _).1 hm.2
    · have hget := hwf.mem_iff.1 (hp.mem_iff.1 hm.1)
      simp only [step, get, k1, hget]
      cases hx : p.2.expiresAt with
      | none => simp only [k2]
      | some x =>
        have := k4 x hx
        simp only
        rw [if_neg (by omega), k2]

/-- C11: two consecutive pages of an unchanged store are together the page of both sizes, and a page is never longer
than its limit: walking through the pages lists what one large scan lists, nothing twice and nothing missing. -/
theorem C11_pages (visited : Map) (l l' o : Nat) (filter : Option Str) (now : Nat) :
    (scan visited l o filter now).2 ++ (scan visited l' (o + l) filter now).2 = (scan visited (l + l') o filter now).2
    ∧ (scan visited l o filter now).2.length ≤ l := by
  unfold scan
  simp only
  constructor
  · rw [← List.filterMap_append, ← List.drop_drop, List.take_add]
  · exact Nat.le_trans (List.length_filterMap_le _ _) (by rw [List.length_take]; omega)

/-- Non-vacuity: three keys in two pages. -/
example : (scan [([1], ⟨[7], none⟩), ([2], ⟨[8], none⟩), ([3], ⟨[9], none⟩)] 2 0 none 0).2.map (·.key) = [[1], [2]]
    ∧ (scan [([1], ⟨[7], none⟩), ([2], ⟨[8], none⟩), ([3], ⟨[9], none⟩)] 2 2 none 0).2.map (·.key) = [[3]] := by decide

/-- C11: a scan from the start with a limit at least as large as the store lists every key that matches the
filter and for which GET returns a value (unless the value expires at this very instant). -/
theorem C11_scan_complete (dflt : Nat) (ops : List Op) {visited : Map} (hp : visited.Perm (run dflt [] ops).1)
    {limit : Nat} (hlim : visited.length ≤ limit) (filter : Option Str) (now : Nat) {key : Str} {v : Bytes}
    (hkey : ∀ f, filter = some f → f <:+: key) (hget : (step dflt (run dflt [] ops).1 (.get key now)).2 = .value (some v))
    (hb : ∀ v' x, lastWrite dflt key ops = some (v', x) → x ≠ now) :
    ∃ e ∈ (scan visited limit 0 filter now).2, e.key = key ∧ e.payload = v := by
  have hwf := wf dflt ops [] MWF.nil
  have h := stored dflt key ops
  simp only [step, get] at hget
  cases hg : mget (run dflt [] ops).1 key with
  | none => rw [hg] at hget; cases hget
  | some e =>
    rw [hg] at hget h
    obtain ⟨x, h1, h2⟩ := h
    simp only [h2] at hget
    have hne := hb _ _ h1
    split at hget
    · cases hget
    · next hle =>
      injection hget with hget
      injection hget with hget
      refine ⟨⟨key, e.value, e.expiresAt⟩, ?_, rfl, hget⟩
      simp only [scan, List.drop_zero]
      rw [List.take_of_length_le (Nat.le_trans (List.length_filter_le _ _) hlim)]
      rw [List.mem_filterMap]
      refine ⟨(key, e), ?_, ?_⟩
      · rw [List.mem_filter]
        refine ⟨hp.mem_iff.2 (hwf.mem_iff.2 hg), ?_⟩
        cases filter with
        | none => rfl
        | some f => exact (contains_iff _ _).2 (hkey f rfl)
      · simp only [liveEntry, h2]
        rw [if_neg (by omega)]

example : (scan ((run 60 [] exOps).1.reverse) 10 0 (some [97]) 7000000000) = (2, [⟨[97], [3], some 12000000000⟩]) := by decide

/-! ## C12 -/

/-- C12: what GET returns for a key depends only on the events about that key: all other SETs, DELs and cleanups can be
left out of the history. -/
theorem C12_independent (dflt : Nat) (ops : List Op) (key : Str) (now : Nat) :
    (step dflt (run dflt [] ops).1 (.get key now)).2 =
      (step dflt (run dflt [] (ops.filter (fun o => o.key = key))).1 (.get key now)).2 := by
  have key_ : ∀ (ops : List Op) (m m' : Map), mget m key = mget m' key →
      mget (run dflt m ops).1 key = mget (run dflt m' (ops.filter (fun o => o.key = key))).1 key := by
    intro ops
    induction ops with
    | nil => intro m m' h; exact h
    | cons op t ih =>
      intro m m' h
      by_cases hk : op.key = key
      · rw [List.filter_cons_of_pos (by simpa using hk)]
        simp only [run]
        apply ih
        cases op with
        | set k v ttl n =>
          rw [step_set, step_set]
          by_cases hr : representable (expiry dflt ttl n) = true
          · rw [if_pos hr, if_pos hr, mget_mset, mget_mset, h]
          · rw [if_neg hr, if_neg hr, h]
        | get k n => exact h
        | del k => simp only [step, del, mget_mdel, h]
        | sweep k n =>
          simp only [Op.key] at hk
          subst hk
          simp only [step, sweep, h]
          cases hg : mget m' k with
          | none => simp only [h, hg]
          | some e =>
            simp only
            split
            · rw [h]
            · rw [mget_mdel_same, mget_mdel_same]
      · rw [List.filter_cons_of_neg (by simpa using hk)]
        simp only [run]
        apply ih
        rw [← h]
        have hne : key ≠ op.key := fun hh => hk hh.symm
        cases op with
        | set k v ttl n =>
          rw [step_set]
          split
          · rw [mget_mset]; exact if_neg hne
          · rfl
        | get k n => rfl
        | del k => exact mget_mdel_ne m hne
        | sweep k n =>
          simp only [step, sweep]
          split
          · split
            · rfl
            · exact mget_mdel_ne m hne
          · rfl
  simp only [step, get, key_ ops [] [] rfl]

example : exOps.filter (fun o => o.key = [98]) = [.set [98] [2] none 1000, .sweep [98] 6000000000, .del [98]] := by decide

end Verif.Store
