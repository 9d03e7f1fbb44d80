import Verif.Props.PubSub
import Verif.Proofs.SdkConnection

/-!
# C125: a retained value that was cleaned up does not come back

The English statement is in `/verif/properties.jsonl`.
-/

namespace Verif.PubSub

open Verif

/-- Unless there is something to write, the database has no rows but those of values that the server holds. -/
def Trim (s : State) : Prop := s.dirty = false → ∀ topic, (mget s.db topic).isSome = true → (retAt (split topic) s.tree).isSome = true

theorem Trim.same {s s' : State} (hi : Trim s) (hdb : s'.db = s.db) (hd : s'.dirty = false → s.dirty = false)
    (hr : s'.dirty = false → ∀ ps, retAt ps s'.tree = retAt ps s.tree) : Trim s' := fun h0 topic ht => by
  rw [hdb] at ht
  rw [hr h0]
  exact hi (hd h0) topic ht

/-- The rows of a flush are those of values that the server holds. -/
theorem rows_held {dflt : Nat} {base : Str → Option Kept} {t : Nat} {s : State} {h : List Op} (hi : RetInv dflt base t s h)
    (hp : ∀ topic k, keptRev dflt base topic h = some k → plainTopic topic = true) {topic : Str} (ht : (mget (rows t s.tree) topic).isSome = true) :
    (retAt (split topic) s.tree).isSome = true := by
  obtain ⟨v, hv⟩ := Option.isSome_iff_exists.1 ht
  have hm := mget_some_mem hv
  unfold rows at hm
  rw [collectAll_eq, List.map_map] at hm
  obtain ⟨e, he, heq⟩ := List.mem_map.1 hm
  have hin := (List.mem_filter.1 he).1
  obtain ⟨h1, h2⟩ := entries_topic hi hin
  have hlab : pathOf [] e.1 = joinL e.1 := by
    conv => lhs; rw [h1]
    rw [pathOf_split, plain_label (hp _ _ h2)]
  have ht' : topic = joinL e.1 := by
    have := congrArg Prod.fst heq
    simp only [Function.comp] at this
    rw [← this, hlab]
  have hs : split topic = e.1 := by rw [ht', ← h1]
  rw [hs, (mem_entries hi.wf).1 hin]
  rfl

theorem Trim.step {dflt : Nat} {base : Str → Option Kept} {t : Nat} {s : State} {h : List Op} (hi : Trim s) (hr : RetInv dflt base t s h) (o : Op)
    (ht : t ≤ o.time.getD t) (hp : ∀ topic k, keptRev dflt base topic (o :: h) = some k → plainTopic topic = true) (ho : ∀ now, o ≠ .flush now false) :
    Trim (PubSub.step dflt s o).1 := by
  cases o with
  | connect c => exact hi.same rfl id (fun _ _ => rfl)
  | drop c => exact hi.same rfl id (fun _ _ => rfl)
  | disconnect c =>
    obtain ⟨h1, h2⟩ := disconnect_db s c
    exact hi.same h1 (fun h => h2 ▸ h) (fun _ ps => retAt_disconnect s c ps)
  | subscribe c p order now =>
    simp only [PubSub.step, subscribe]
    cases mget s.clients c with
    | none => exact hi
    | some info => exact hi.same rfl id (fun _ _ => retAt_insert)
  | unsubscribe c p => exact hi.same rfl id (fun _ _ => retAt_remove)
  | publish topic data keep ttl now unixNow =>
    obtain ⟨h1, _, h3, h4⟩ := publish_ret dflt s topic data keep ttl now unixNow
    refine hi.same h3 (fun h0 => ?_) (fun h0 ps => ?_)
    · simp only [PubSub.step] at h0
      rw [h4, Bool.or_eq_false_iff] at h0
      exact h0.1
    · simp only [PubSub.step] at h0 ⊢
      rw [h4, Bool.or_eq_false_iff] at h0
      rw [h1]
      cases keep with
      | false => simp
      | true =>
        simp only [Bool.true_and, Bool.or_eq_false_iff] at h0
        have hd : data ≠ [] := by rintro rfl; cases h0.2.1
        simp [hd, h0.2.2]
  | cleanup now =>
    refine hi.same rfl (fun h0 => ?_) (fun h0 ps => ?_)
    · simp only [PubSub.step, Bool.or_eq_false_iff] at h0
      exact h0.1
    · simp only [PubSub.step, Bool.or_eq_false_iff] at h0 ⊢
      exact cleanup_flag h0.2 ps
  | flush now ok =>
    cases ok with
    | false => exact absurd rfl (ho now)
    | true =>
      simp only [PubSub.step]
      split
      · obtain ⟨h1, _, _⟩ := rows_spec (hr.later ht) hp
        simp only [Op.time, Option.getD_some] at h1
        have hf : flushRows s.db (rows now s.tree) true = rows now s.tree := by
          unfold flushRows
          rw [Bool.true_and]
          exact if_pos (decide_eq_true (show ((rows now s.tree).map (·.1)).Nodup from h1))
        intro _ topic htop
        have htop : (mget (flushRows s.db (rows now s.tree) true) topic).isSome = true := htop
        rw [hf] at htop
        exact rows_held (hr.later ht) (t := now) hp htop
      · exact hi

theorem base_live {db : List Row} {t0 u0 : Nat} {topic : Str} {k : Kept} (h : baseOf db t0 u0 topic = some k) : k.live t0 = true := by
  unfold baseOf at h
  split at h
  · next d u _ =>
    injection h with h
    subst h
    simp only [Kept.live]
    by_cases hu : u0 < u
    · rw [if_pos hu]
      have : 0 < (u - u0) * second := Nat.mul_pos (by omega) (by decide)
      simp
      omega
    · rw [if_neg hu]
  · injection h with h; subst h; rfl
  · cases h

theorem Trim.of_run {dflt : Nat} {db : List Row} (hn : MWF db) {t0 u0 : Nat} (h : List Op) (hv : Valid t0 h) (hp : PlainTopics db h) (hf : FlushesOk h) :
    Trim (run dflt (boot db t0 u0) h).1 := by
  induction h using Sdk.snoc_ind with
  | h0 =>
    intro _ topic ht
    have hr := RetInv.of_run (dflt := dflt) (u0 := u0) hn [] hv
    obtain ⟨v, hv'⟩ := Option.isSome_iff_exists.1 ht
    have hb : ∃ k, baseOf db t0 u0 topic = some k := by
      have hv' : mget db topic = some v := hv'
      unfold baseOf
      rw [hv']
      obtain ⟨d, u⟩ := v
      cases u <;> exact ⟨_, rfl⟩
    obtain ⟨k, hk⟩ := hb
    rcases hr.complete topic k hk with ⟨r, h1, _⟩ | ⟨_, h2⟩
    · rw [h1]; rfl
    · have := base_live hk
      have h2 : k.live t0 = false := h2
      rw [this] at h2
      cases h2
  | h1 h o ih =>
    obtain ⟨h1, h2⟩ := hv.init
    rw [run_snoc]
    have hr := RetInv.of_run (dflt := dflt) (u0 := u0) hn _ h1
    refine (ih h1 hp.init (fun now hm => hf now (List.mem_append_left _ hm))).step hr o h2 ?_ ?_
    · intro topic k hk
      refine kept_plain hp (k := k) (dflt := dflt) (t0 := t0) (u0 := u0) ?_
      unfold kept
      rw [List.reverse_append]
      exact hk
    · rintro now rfl
      exact hf now (List.mem_append_right _ (List.mem_cons_self ..))

/-- While nobody publishes a value for it, a topic without value stays without. -/
theorem absent_run {dflt : Nat} {topic : Str} (g : List Op) (s : State) (hg : ∀ d t n u, .publish topic d true t n u ∉ g) (h : retAt (split topic) s.tree = none) :
    retAt (split topic) (run dflt s g).1.tree = none := by
  induction g generalizing s with
  | nil => exact h
  | cons o g ih =>
    rw [run]
    refine ih _ (fun d t n u hm => hg d t n u (List.mem_cons_of_mem _ hm)) ?_
    cases o with
    | connect c => exact h
    | drop c => exact h
    | disconnect c => exact (retAt_disconnect s c _).trans h
    | subscribe c p order now =>
      simp only [step, subscribe]
      cases mget s.clients c with
      | none => exact h
      | some info => exact retAt_insert.trans h
    | unsubscribe c p => exact retAt_remove.trans h
    | cleanup now => simp only [step, retAt_cleanup, h]; rfl
    | flush now ok => simp only [step]; split <;> exact h
    | publish topic' data keep ttl now unixNow =>
      simp only [step]
      rw [(publish_ret dflt s topic' data keep ttl now unixNow).1, if_neg, h]
      rintro ⟨rfl, he⟩
      have : topic = topic' := by rw [← joinL_split topic, ← joinL_split topic', he]
      subst this
      exact hg _ _ _ _ (List.mem_cons_self ..)

/-- **C125** (partial: topics that do not begin with `/`, no failed flush, as in C21).  A retained value has expired when the cleanup task runs at
`tc`; nobody publishes a new one; the flush task runs at `tf`; the server stops, at whatever time, and starts again on its database.  Then
no subscriber is sent a value for the topic. -/
theorem C125_stays_away_partial (dflt : Nat) (db : List Row) (hdb : (db.map (·.1)).Nodup) (t0 u0 : Nat) (h h' g : List Op) (tc tf : Nat)
    (hv : Valid t0 (h ++ .cleanup tc :: h' ++ [.flush tf true])) (hpl : PlainTopics db (h ++ .cleanup tc :: h'))
    (hf : FlushesOk (h ++ .cleanup tc :: h')) (hg : ∀ now ok, .flush now ok ∉ g) {topic : Str} {k : Kept}
    (hk : kept dflt (baseOf db t0 u0) topic h = some k) (hdead : k.live tc = false) (hh' : ∀ d t n u, .publish topic d true t n u ∉ h')
    (t1 u1 : Nat) (c : Cid) (p : Str) (hp : hashLast (split p) = true) (order : List Msg) (now : Nat) (hnow : t1 ≤ now) (c' : Cid) (data : Bytes) :
    ¬ (answer dflt (boot (leftBehind dflt db t0 u0 (h ++ .cleanup tc :: h' ++ .flush tf true :: g)) t1 u1) [.connect c]
        (.subscribe c p order now)).reached c' ⟨topic, data⟩ := by
  have hpl' : PlainTopics db (h ++ .cleanup tc :: h' ++ [.flush tf true]) := by
    refine ⟨hpl.rows, fun t d tt n u hm => hpl.ops t d tt n u ?_⟩
    simpa using hm
  have hf' : FlushesOk (h ++ .cleanup tc :: h' ++ [.flush tf true]) := by
    intro now hm
    rcases List.mem_append.1 hm with hm | hm
    · exact hf now hm
    · simp at hm
  have htrim := Trim.of_run (dflt := dflt) (u0 := u0) hdb _ hv hpl' hf'
  have hsync := SyncInv.of_run (dflt := dflt) (u0 := u0) hdb _ hv hpl' hf'
  have hdirty : (run dflt (boot db t0 u0) (h ++ .cleanup tc :: h' ++ [.flush tf true])).1.dirty = false := by
    rw [run_snoc]
    simp only [step]
    split
    · rfl
    · next hd => exact Bool.not_eq_true _ ▸ hd
  have hleft : leftBehind dflt db t0 u0 (h ++ .cleanup tc :: h' ++ .flush tf true :: g)
      = (run dflt (boot db t0 u0) (h ++ .cleanup tc :: h' ++ [.flush tf true])).1.db := by
    unfold leftBehind
    rw [← List.singleton_append (l := g), ← List.append_assoc, run_append]
    exact db_quiet g _ hg
  -- the value is not in memory any more
  have hgone : retAt (split topic) (run dflt (boot db t0 u0) (h ++ .cleanup tc :: h' ++ [.flush tf true])).1.tree = none := by
    have e : h ++ Op.cleanup tc :: h' ++ [Op.flush tf true] = (h ++ [.cleanup tc]) ++ (h' ++ [.flush tf true]) := by simp
    rw [e] at hv ⊢
    rw [run_append]
    refine absent_run _ _ (fun d t n u hm => ?_) ?_
    · rcases List.mem_append.1 hm with hm | hm
      · exact hh' d t n u hm
      · simp at hm
    · have hv1 : Valid t0 (h ++ [.cleanup tc]) := by
        obtain ⟨ha, hb⟩ := hv
        constructor
        · rw [connects_append] at ha; exact (List.nodup_append.1 ha).1
        · rw [times_append, ← List.cons_append] at hb; exact (List.pairwise_append.1 hb).1
      obtain ⟨h1, h2⟩ := hv1.init
      have hr := (RetInv.of_run (dflt := dflt) (u0 := u0) hdb _ h1).later h2
      rw [run_snoc]
      simp only [step, retAt_cleanup]
      rcases hr.complete topic k hk with ⟨r, h3, h4⟩ | ⟨h3, _⟩
      · rw [h3]
        have : r.expired tc = true := by
          rw [← h4, kept_live] at hdead
          simpa using hdead
        simp [Option.filter, this]
      · rw [h3]; rfl
  have hrow : mget (leftBehind dflt db t0 u0 (h ++ .cleanup tc :: h' ++ .flush tf true :: g)) topic = none := by
    rw [hleft]
    cases hm : mget (run dflt (boot db t0 u0) (h ++ .cleanup tc :: h' ++ [.flush tf true])).1.db topic with
    | none => rfl
    | some v =>
      have := htrim hdirty topic (by rw [hm]; rfl)
      rw [hgone] at this
      cases this
  have hw := hsync.wf
  have hplain := hsync.plain
  rw [← hleft] at hw hplain
  have := (C18_retained_partial dflt (leftBehind dflt db t0 u0 (h ++ .cleanup tc :: h' ++ .flush tf true :: g)) hw t1 u1 [.connect c] c p
    order now ⟨by simp [connects], by simp [times, hnow]⟩ ⟨hplain, by simp⟩ hp (by simp [connected, connectedRev])).2 c' ⟨topic, data⟩
  rw [this]
  rintro ⟨_, _, k', h1, _⟩
  have h1 : baseOf (leftBehind dflt db t0 u0 (h ++ .cleanup tc :: h' ++ .flush tf true :: g)) t1 u1 topic = some k' := h1
  unfold baseOf at h1
  rw [hrow] at h1
  cases h1

/-- A value for `a` with a second to live is flushed, expires, is cleaned up, the flush task runs; after a restart it is not there.  Without
the cleanup and the second flush it would be served for ever. -/
def exAway : List Op := [.publish [97] [1] true (some 1) 0 0, .publish [98] [2] true none 0 0, .flush 1 true]

example : kept 60 (fun _ => none) [97] exAway = some ⟨[1], some 1000000000, some 1⟩ ∧ (⟨[1], some 1000000000, some 1⟩ : Kept).live 2000000000 = false
    ∧ Valid 0 (exAway ++ .cleanup 2000000000 :: [] ++ [.flush 2000000001 true]) ∧ PlainTopics [] (exAway ++ .cleanup 2000000000 :: [])
    ∧ FlushesOk (exAway ++ .cleanup 2000000000 :: [])
    ∧ afterRestart (exAway ++ .cleanup 2000000000 :: [] ++ [.flush 2000000001 true]) 2 100 [35] 1000000000000000 = [(9, ⟨[98], [2]⟩)]
    ∧ afterRestart exAway 2 100 [35] 1000000000000000 = [(9, ⟨[97], [1]⟩), (9, ⟨[98], [2]⟩)] := by
  refine ⟨by decide, by decide, ⟨by decide, by decide⟩, ⟨by simp, ?_⟩, ?_, by decide, by decide⟩
  · intro t d tt n u hm
    simp [exAway] at hm
    rcases hm with ⟨rfl, _⟩ | ⟨rfl, _⟩ <;> decide
  · intro now hm
    simp [exAway] at hm

end Verif.PubSub
