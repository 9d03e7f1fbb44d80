import Verif.Spec.StoreScan
import Verif.Proofs.Store
import Verif.Proofs.SdkConnection

namespace Verif.Store

variable {dflt n : Nat} {home : Str → Nat} {before : List Op} {es : List ScanEv}

theorem opsOf_append (a b : List ScanEv) : opsOf (a ++ b) = opsOf a ++ opsOf b := by
  induction a with
  | nil => rfl
  | cons e a ih => cases e <;> simp [opsOf, ih]

theorem Scan.run_append (a b : List ScanEv) (s : Scan) : s.run dflt n home (a ++ b) = (s.run dflt n home a).run dflt n home b := by
  induction a generalizing s with
  | nil => rfl
  | cons e a ih => exact ih _

theorem Scan.run_snoc (a : List ScanEv) (e : ScanEv) (s : Scan) :
    s.run dflt n home (a ++ [e]) = (s.run dflt n home a).step dflt n home e := by
  rw [Scan.run_append]; rfl

theorem during_snoc (dflt : Nat) (before : List Op) (es : List ScanEv) (e : ScanEv) :
    during dflt before (es ++ [e]) = match e with | .op o => (Store.step dflt (during dflt before es) o).1 | _ => during dflt before es := by
  unfold during
  rw [opsOf_append]
  cases e with
  | op o => simp only [opsOf]; rw [← List.append_assoc, run_append]; rfl
  | _ => simp [opsOf]

theorem Scan.m_eq (dflt n : Nat) (home : Str → Nat) (before : List Op) (es : List ScanEv) :
    ((Scan.start (Store.run dflt [] before).1).run dflt n home es).m = during dflt before es := by
  induction es using Verif.Sdk.snoc_ind with
  | h0 => simp [Scan.run, Scan.start, during, opsOf]
  | h1 es e ih =>
    rw [Scan.run_snoc, during_snoc]
    cases e with
    | op o => simp only [Scan.step]; rw [ih]
    | count => simp only [Scan.step]; split <;> exact ih
    | clock _ => simp only [Scan.step]; split <;> exact ih
    | visit _ => simp only [Scan.step]; split <;> exact ih

theorem during_wf : MWF (during dflt before es) := wf dflt _ [] MWF.nil

/-- What is known about the entries seen. -/
structure ScanInv (dflt : Nat) (home : Str → Nat) (before : List Op) (es : List ScanEv) (s : Scan) : Prop where
  nodup : (s.seen.map (·.1)).Nodup
  homes : ∀ e ∈ s.seen, home e.1 < s.visited
  there : ∀ e ∈ s.seen, ∃ es1 es2, es = es1 ++ es2 ∧ (∃ now, s.now = some now ∧ .clock now ∈ es1) ∧ mget (during dflt before es1) e.1 = some e.2
  clock : ∀ now, s.now = some now → .clock now ∈ es
  /-- A key that is there all the time is seen. -/
  all : ∀ k e, (∀ es1 es2, es = es1 ++ es2 → mget (during dflt before es1) k = some e) → home k < s.visited → (k, e) ∈ s.seen

theorem mem_shard {i : Nat} {m : Map} {e : Str × Entry} : e ∈ shard home i m ↔ e ∈ m ∧ home e.1 = i := by
  simp [shard]

theorem ScanInv.run (hf : Faithful es) :
    ScanInv dflt home before es ((Scan.start (Store.run dflt [] before).1).run dflt n home es) := by
  induction es using Verif.Sdk.snoc_ind with
  | h0 =>
    exact ⟨List.nodup_nil, (fun _ h => nomatch h), (fun _ h => nomatch h), (fun _ h => nomatch h), fun k e _ h => absurd h (Nat.not_lt_zero _)⟩
  | h1 es e ih =>
    have hm := Scan.m_eq dflt n home before es
    have ih := ih (fun o ho => hf o (List.mem_append_left _ ho))
    rw [Scan.run_snoc]
    generalize (Scan.start (Store.run dflt [] before).1).run dflt n home es = s at ih hm
    have grow : ∀ {es1 es2 : List ScanEv}, es = es1 ++ es2 → es ++ [e] = es1 ++ (es2 ++ [e]) := by
      intro a b h; rw [h, List.append_assoc]
    have keep : ∀ s' : Scan, s'.seen = s.seen → s'.visited = s.visited → s'.now = s.now → ScanInv dflt home before (es ++ [e]) s' := by
      intro s' h1 h2 h3
      refine ⟨h1 ▸ ih.nodup, ?_, ?_, ?_, ?_⟩
      · rw [h1, h2]; exact ih.homes
      · rw [h1, h3]
        intro x hx
        obtain ⟨a, b, h4, h5, h6⟩ := ih.there x hx
        exact ⟨a, b ++ [e], grow h4, h5, h6⟩
      · rw [h3]; exact fun now h => List.mem_append_left _ (ih.clock now h)
      · rw [h1, h2]
        exact fun k x hx hk => ih.all k x (fun a b hab => hx a (b ++ [e]) (grow hab)) hk
    cases e with
    | op o => exact keep _ rfl rfl rfl
    | count => simp only [Scan.step]; split <;> exact keep _ rfl rfl rfl
    | clock now =>
      simp only [Scan.step]
      split
      · next hc =>
        refine ⟨ih.nodup, ih.homes, ?_, ?_, ?_⟩
        · intro x hx
          obtain ⟨_, _, _, ⟨now', h5, _⟩, _⟩ := ih.there x hx
          rw [hc.2] at h5; cases h5
        · intro now' h; cases h; exact List.mem_append_right _ (List.mem_singleton_self _)
        · exact fun k x hx hk => ih.all k x (fun a b hab => hx a (b ++ [_]) (grow hab)) hk
      · exact keep _ rfl rfl rfl
    | visit order =>
      simp only [Scan.step]
      split
      · next hc =>
        have hp := hf order (List.mem_append_right _ (List.mem_singleton_self _)) (shard home s.visited s.m)
        obtain ⟨now, hnow⟩ := Option.isSome_iff_exists.1 hc.1
        refine ⟨?_, ?_, ?_, ?_, ?_⟩
        · simp only [List.map_append]
          refine List.nodup_append.2 ⟨ih.nodup, ?_, ?_⟩
          · refine (hp.map _).nodup_iff.2 ?_
            rw [hm]
            exact (List.filter_sublist.map _).nodup during_wf
          · intro a ha b hb hab
            obtain ⟨x, hx, rfl⟩ := List.mem_map.1 ha
            obtain ⟨y, hy, rfl⟩ := List.mem_map.1 hb
            have h1 := ih.homes x hx
            have h2 := (mem_shard.1 (hp.mem_iff.1 hy)).2
            rw [← hab] at h2; omega
        · intro x hx
          rcases List.mem_append.1 hx with h | h
          · have := ih.homes x h; simp only; omega
          · have := (mem_shard.1 (hp.mem_iff.1 h)).2; simp only; omega
        · intro x hx
          rcases List.mem_append.1 hx with h | h
          · obtain ⟨a, b, h4, h5, h6⟩ := ih.there x h
            exact ⟨a, b ++ [_], grow h4, h5, h6⟩
          · refine ⟨es, [_], rfl, ⟨now, hnow, ih.clock now hnow⟩, ?_⟩
            rw [← hm]
            exact (MWF.mem_iff (hm ▸ during_wf)).1 (mem_shard.1 (hp.mem_iff.1 h)).1
        · exact fun now h => List.mem_append_left _ (ih.clock now h)
        · intro k x hx hk
          by_cases hk' : home k < s.visited
          · exact List.mem_append_left _ (ih.all k x (fun a b hab => hx a (b ++ [_]) (grow hab)) hk')
          · refine List.mem_append_right _ (hp.mem_iff.2 (mem_shard.2 ⟨?_, by simp only at hk ⊢; omega⟩))
            have := hx es [_] rfl
            rw [← hm] at this
            exact mget_some_mem this
      · exact keep _ rfl rfl rfl

/-! ### How many there are -/

theorem length_mdel_le (m : Map) (k : Str) : (mdel m k).length ≤ m.length := List.length_filter_le _ _

theorem step_length (dflt : Nat) (m : Map) (o : Op) : (Store.step dflt m o).1.length ≤ m.length + sets [o] := by
  cases o with
  | set k v ttl now =>
    rw [step_set]
    split
    · have := length_mdel_le m k
      simp only [mset, List.length_append, sets]; simp; omega
    · simp
  | get _ _ => simp [Store.step]
  | del k => simp only [Store.step, del]; exact Nat.le_trans (length_mdel_le m k) (by simp)
  | sweep k now =>
    simp only [Store.step, sweep]
    split
    · split
      · simp
      · exact Nat.le_trans (length_mdel_le m k) (by simp)
    · simp

theorem sets_append (a b : List Op) : sets (a ++ b) = sets a + sets b := by
  induction a with
  | nil => simp [sets]
  | cons o a ih => cases o <;> simp [sets, ih] <;> omega

/-- Entries of shards `≥ i`. -/
def later (home : Str → Nat) (i : Nat) (m : Map) : Map := m.filter (fun e => decide (i ≤ home e.1))

theorem later_split (home : Str → Nat) (i : Nat) (m : Map) :
    (later home i m).length = (shard home i m).length + (later home (i + 1) m).length := by
  induction m with
  | nil => rfl
  | cons e m ih =>
    simp only [later, shard, List.filter_cons] at ih ⊢
    by_cases h1 : home e.1 = i
    · have h2 : i ≤ home e.1 := by omega
      have h3 : ¬ (i + 1 ≤ home e.1) := by omega
      simp only [h1, BEq.rfl, if_true, h2, h3, decide_true, decide_false, Bool.false_eq_true, if_false, List.length_cons] at ih ⊢
      simp only [Nat.le_refl, decide_true, if_true, List.length_cons, show ¬ (i + 1 ≤ i) by omega, decide_false, Bool.false_eq_true, if_false]
      omega
    · by_cases h2 : i ≤ home e.1
      · have h3 : i + 1 ≤ home e.1 := by omega
        simp only [beq_iff_eq, h1, if_false, h2, h3, decide_true, if_true, List.length_cons]
        omega
      · have h3 : ¬ (i + 1 ≤ home e.1) := by omega
        simp only [beq_iff_eq, h1, if_false, h2, h3, decide_false, Bool.false_eq_true]
        exact ih

theorem later_filter_mdel (home : Str → Nat) (i : Nat) (m : Map) (k : Str) : (later home i (mdel m k)).length ≤ (later home i m).length := by
  simp only [later, mdel, List.filter_filter]
  simp only [Bool.and_comm]
  rw [← List.filter_filter]
  exact List.length_filter_le _ _

theorem later_step (dflt : Nat) (home : Str → Nat) (i : Nat) (m : Map) (o : Op) :
    (later home i (Store.step dflt m o).1).length ≤ (later home i m).length + sets [o] := by
  have hset : ∀ k e, (later home i (mset m k e)).length ≤ (later home i m).length + 1 := by
    intro k e
    have h1 := later_filter_mdel home i m k
    have h2 : (later home i (mset m k e)).length ≤ (later home i (mdel m k)).length + 1 := by
      simp only [mset, later, List.filter_append, List.length_append]
      exact Nat.add_le_add_left (List.length_filter_le _ _) _
    omega
  cases o with
  | set k v ttl now =>
    rw [step_set]
    split
    · exact hset _ _
    · simp
  | get _ _ => simp [Store.step]
  | del k => simp only [Store.step, del]; exact Nat.le_trans (later_filter_mdel home i m k) (by simp)
  | sweep k now =>
    simp only [Store.step, sweep]
    split
    · split
      · simp
      · exact Nat.le_trans (later_filter_mdel home i m k) (by simp)
    · simp

/-- What has been counted and what is still ahead is at most what was there and what has been added. -/
theorem total_le (hn : ∀ k, home k < n) :
    let s := (Scan.start (Store.run dflt [] before).1).run dflt n home es
    s.total + (later home s.counted s.m).length ≤ (Store.run dflt [] before).1.length + sets (opsOf es) := by
  induction es using Verif.Sdk.snoc_ind with
  | h0 => simp only [Scan.run, Scan.start, opsOf, sets]; have := List.length_filter_le (fun e => decide (0 ≤ home e.1)) (Store.run dflt [] before).1; simp only [later]; omega
  | h1 es e ih =>
    rw [Scan.run_snoc, opsOf_append, sets_append, ← Nat.add_assoc]
    simp only at ih ⊢
    generalize (Scan.start (Store.run dflt [] before).1).run dflt n home es = s at ih
    cases e with
    | op o => simp only [Scan.step, opsOf]; have := later_step dflt home s.counted s.m o; omega
    | count =>
      simp only [Scan.step]
      split
      · have := later_split home s.counted s.m; simp only; omega
      · exact Nat.le_trans ih (Nat.le_add_right _ _)
    | clock _ => simp only [Scan.step]; split <;> exact Nat.le_trans ih (Nat.le_add_right _ _)
    | visit _ => simp only [Scan.step]; split <;> exact Nat.le_trans ih (Nat.le_add_right _ _)

/-- The same for the entries seen. -/
theorem seen_le (hf : Faithful es) :
    let s := (Scan.start (Store.run dflt [] before).1).run dflt n home es
    s.seen.length + (later home s.visited s.m).length ≤ (Store.run dflt [] before).1.length + sets (opsOf es) := by
  induction es using Verif.Sdk.snoc_ind with
  | h0 => simp only [Scan.run, Scan.start, opsOf, sets]; have := List.length_filter_le (fun e => decide (0 ≤ home e.1)) (Store.run dflt [] before).1; simp only [later, List.length_nil]; omega
  | h1 es e ih =>
    have ih := ih (fun o ho => hf o (List.mem_append_left _ ho))
    rw [Scan.run_snoc, opsOf_append, sets_append, ← Nat.add_assoc]
    simp only at ih ⊢
    generalize (Scan.start (Store.run dflt [] before).1).run dflt n home es = s at ih
    cases e with
    | op o => simp only [Scan.step, opsOf]; have := later_step dflt home s.visited s.m o; omega
    | count => simp only [Scan.step]; split <;> exact Nat.le_trans ih (Nat.le_add_right _ _)
    | clock _ => simp only [Scan.step]; split <;> exact Nat.le_trans ih (Nat.le_add_right _ _)
    | visit order =>
      simp only [Scan.step]
      split
      · have := later_split home s.visited s.m
        have hp := (hf order (List.mem_append_right _ (List.mem_singleton_self _)) (shard home s.visited s.m)).length_eq
        simp only [List.length_append]; omega
      · exact Nat.le_trans ih (Nat.le_add_right _ _)

theorem count_split (home : Str → Nat) (c : Nat) (K : List Str) : (K.filter (fun k => decide (home k < c + 1))).length
    = (K.filter (fun k => decide (home k < c))).length + (K.filter (fun k => home k == c)).length := by
  induction K with
  | nil => rfl
  | cons k K ih =>
    rw [List.filter_cons, List.filter_cons, List.filter_cons]
    rcases Nat.lt_trichotomy (home k) c with h | h | h
    · rw [if_pos (by simp; omega), if_pos (by simpa using h), if_neg (by simp; omega), List.length_cons, List.length_cons]; omega
    · rw [if_pos (by simp; omega), if_neg (by simp; omega), if_pos (by simpa using h), List.length_cons, List.length_cons]; omega
    · rw [if_neg (by simp; omega), if_neg (by simp; omega), if_neg (by simp; omega)]; exact ih

/-- Keys that are there all the time are counted. -/
theorem total_ge {K : List Str} (hK : K.Nodup) (hthere : ∀ es1 es2, es = es1 ++ es2 → ∀ k ∈ K, mhas (during dflt before es1) k = true) :
    let s := (Scan.start (Store.run dflt [] before).1).run dflt n home es
    (K.filter (fun k => decide (home k < s.counted))).length ≤ s.total := by
  induction es using Verif.Sdk.snoc_ind with
  | h0 => simp [Scan.run, Scan.start]
  | h1 es e ih =>
    have hm := Scan.m_eq dflt n home before es
    have ih := ih (fun a b hab => hthere a (b ++ [e]) (by rw [hab, List.append_assoc]))
    have hnow := hthere es [e] rfl
    rw [Scan.run_snoc]
    simp only at ih ⊢
    generalize (Scan.start (Store.run dflt [] before).1).run dflt n home es = s at ih hm
    cases e with
    | op o => exact ih
    | clock _ => simp only [Scan.step]; split <;> exact ih
    | visit _ => simp only [Scan.step]; split <;> exact ih
    | count =>
      simp only [Scan.step]
      split
      · simp only
        have hsplit := count_split home s.counted K
        have hle : (K.filter (fun k => home k == s.counted)).length ≤ (shard home s.counted s.m).length := by
          have : (K.filter (fun k => home k == s.counted)) ⊆ (shard home s.counted s.m).map (·.1) := by
            intro k hk
            obtain ⟨h1, h2⟩ := List.mem_filter.1 hk
            have := hnow k h1
            rw [← hm] at this
            obtain ⟨e, he⟩ := Option.isSome_iff_exists.1 this
            exact List.mem_map.2 ⟨(k, e), mem_shard.2 ⟨mget_some_mem he, by simpa using h2⟩, rfl⟩
          have h := List.Nodup.length_le_of_subset (hK.filter _) this
          simpa using h
        omega
      · exact ih

theorem counted_all :
    let s := (Scan.start (Store.run dflt [] before).1).run dflt n home es
    s.now.isSome → s.counted = n := by
  induction es using Verif.Sdk.snoc_ind with
  | h0 => intro s h; cases h
  | h1 es e ih =>
    rw [Scan.run_snoc]
    simp only at ih ⊢
    generalize (Scan.start (Store.run dflt [] before).1).run dflt n home es = s at ih
    cases e with
    | op o => exact ih
    | count =>
      simp only [Scan.step]
      split
      · intro h; have := ih h; simp only; omega
      · exact ih
    | clock _ =>
      simp only [Scan.step]; split
      · next h => exact fun _ => h.1
      · exact ih
    | visit _ => simp only [Scan.step]; split <;> exact ih

end Verif.Store
