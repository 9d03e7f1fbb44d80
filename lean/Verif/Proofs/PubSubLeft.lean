import Verif.Spec.PubSubLeft
import Verif.Proofs.PubSubRace
import Verif.Proofs.PubSubScan

/-! # Lemmas for C74: the table of clients and the tree agree when no request is in progress -/

namespace Verif.PubSub.Race

/-- What an event does to the subscriptions of a client that stays in the table. -/
def upd (c : Cid) (e : Ev) (subs : List Str) : List Str :=
  match e with
  | .start _ (.subscribe d p) => if d = c then setInsert p subs else subs
  | .start _ (.unsubscribe d p) => if d = c then setRemove p subs else subs
  | _ => subs

theorem beginDrop_entry {s : State} {c : Cid} {subs : List Str} (h : mget s.clients c = some subs) (id : Nat) (cs : List Cid) :
    mget (beginDrop s id cs).clients c = some subs ∨
    (mget (beginDrop s id cs).clients c = none ∧ ∃ rest, mget (beginDrop s id cs).tasks id = some (.forget c subs rest)) := by
  cases cs with
  | nil => exact .inl h
  | cons d rest =>
    by_cases hd : d = c
    · subst hd
      refine .inr ?_
      simp only [beginDrop, h]
      exact ⟨mget_mdel_same _ _, rest, mget_mset_same _ _ _⟩
    · rw [beginDrop_clients s id (d :: rest) c (by simp [hd])]
      exact .inl h

theorem entry_step {s : State} {c : Cid} {subs : List Str} (h : mget s.clients c = some subs) {e : Ev} (he : e ≠ .connect c) :
    mget (step s e).1.clients c = some (upd c e subs) ∨
    (mget (step s e).1.clients c = none ∧ ∃ i rest, mget (step s e).1.tasks i = some (.forget c subs rest)) := by
  cases e with
  | connect d =>
    refine .inl ?_
    simp only [step]
    rw [mget_mset_ne _ _ (fun hc => he (by rw [hc]))]
    exact h
  | gone d => exact .inl h
  | start id r =>
    cases r with
    | subscribe d p =>
      refine .inl ?_
      simp only [step, begin_, upd]
      by_cases hd : d = c
      · subst hd
        simp only [h, if_true]
        exact mget_mset_same _ _ _
      · rw [if_neg hd]
        split
        · simp only; rw [mget_mset_ne _ _ (fun hc => hd hc.symm)]; exact h
        · exact h
    | unsubscribe d p =>
      refine .inl ?_
      simp only [step, begin_, upd]
      rw [mget_mupd]
      by_cases hd : d = c
      · subst hd; rw [if_pos rfl, if_pos rfl, h]; rfl
      · rw [if_neg (fun hc => hd hc.symm), if_neg hd]; exact h
    | publish t d keep => exact .inl h
    | disconnect d =>
      rcases beginDrop_entry h id [d] with h1 | ⟨h1, rest, h2⟩
      · exact .inl h1
      · exact .inr ⟨h1, id, rest, h2⟩
  | next id now =>
    simp only [step]
    split
    · next t ht =>
      unfold advance
      split
      · exact .inl h
      · exact .inl h
      · exact .inl h
      · next zs =>
        rcases beginDrop_entry h id zs with h1 | ⟨h1, rest, h2⟩
        · exact .inl h1
        · exact .inr ⟨h1, id, rest, h2⟩
      · split <;> exact .inl h
      · exact .inl h
      · next cs =>
        rcases beginDrop_entry h id cs with h1 | ⟨h1, rest, h2⟩
        · exact .inl h1
        · exact .inr ⟨h1, id, rest, h2⟩
    · exact .inl h

/-- A client in the table has connected; so has one that is being forgotten. -/
theorem entry_connected {es : List Ev} {c : Cid} (h : mget (run {} es).clients c ≠ none) : Ev.connect c ∈ es := by
  induction es using Verif.Sdk.snoc_ind with
  | h0 => exact absurd rfl h
  | h1 es e ih =>
    by_cases he : e = .connect c
    · simp [he]
    · refine List.mem_append_left _ (ih ?_)
      intro hn
      rw [run_snoc] at h
      exact h (step_none hn he)

theorem forget_connected {es : List Ev} {c : Cid} {i : Nat} {ps : List Str} {rest : List Cid}
    (h : mget (run {} es).tasks i = some (.forget c ps rest)) : Ev.connect c ∈ es := by
  induction es using Verif.Sdk.snoc_ind with
  | h0 => cases h
  | h1 es e ih =>
    rw [run_snoc] at h
    refine List.mem_append_left _ ?_
    rcases task_from h with h | ⟨r, _, hr⟩ | ⟨now, t0, _, _, hr⟩
    · exact ih h
    · exact entry_connected (by rw [hr.2.2]; simp)
    · rcases t0 with _ | _ | _ | ⟨_, _ | _, _⟩ | _ | _ <;> first | exact hr.elim | exact entry_connected (by rw [hr.2]; simp)

/-- How table, tree and tasks hang together for one client. -/
structure Left (c : Cid) (s : State) : Prop where
  tree : ∀ ed, c ∈ subsAt ed s.tree →
    (∃ subs p, mget s.clients c = some subs ∧ p ∈ subs ∧ edges (split p) = ed) ∨
    (∃ i ps rest p, mget s.tasks i = some (.forget c ps rest) ∧ p ∈ ps ∧ edges (split p) = ed) ∨
    ∃ i p, mget s.tasks i = some (.unsubscribe c p) ∧ edges (split p) = ed
  table : ∀ subs p, mget s.clients c = some subs → p ∈ subs →
    c ∈ subsAt (edges (split p)) s.tree ∨ ∃ i, mget s.tasks i = some (.subscribe c p)
  coming : ∀ i p, mget s.tasks i = some (.subscribe c p) → ∃ subs, mget s.clients c = some subs ∧ p ∈ subs
  going : ∀ i p, mget s.tasks i = some (.unsubscribe c p) → ∀ subs, mget s.clients c = some subs → p ∉ subs
  gone : ∀ i ps rest, mget s.tasks i = some (.forget c ps rest) → mget s.clients c = none

theorem Calm.prefix {c : Cid} {x y : List Ev} (h : Calm c (x ++ y)) : Calm c x := by
  refine ⟨?_, ?_, ?_, ?_⟩
  · rintro a b rfl; exact h.once a (b ++ y) (by simp)
  · rintro a b i p rfl; exact h.sub a (b ++ y) i p (by simp)
  · rintro a b i p rfl; exact h.unsub a (b ++ y) i p (by simp)
  · rintro a b e p rfl; exact h.drop a (b ++ y) e p (by simp)

theorem proper_prefix {x y : List Ev} (h : Proper (x ++ y)) : Proper x :=
  ⟨fun i d q hq => h.1 i d q (List.mem_append_left _ hq), fun i d q hq => h.2 i d q (List.mem_append_left _ hq)⟩

/-- The patterns in the table were asked for. -/
theorem table_origin {es : List Ev} {c : Cid} {subs : List Str} {p : Str} (h : mget (run {} es).clients c = some subs) (hp : p ∈ subs) :
    ∃ i, Ev.start i (.subscribe c p) ∈ es := by
  induction es using Verif.Sdk.snoc_ind generalizing subs with
  | h0 => cases h
  | h1 es e ih =>
    by_cases he : e = .connect c
    · subst he
      rw [run_snoc] at h
      simp only [step] at h
      rw [mget_mset_same] at h
      cases h; cases hp
    · cases hg : mget (run {} es).clients c with
      | none => rw [run_snoc, step_none hg he] at h; cases h
      | some subs0 =>
        rw [run_snoc] at h
        rcases entry_step hg he with h1 | ⟨h1, _⟩
        · rw [h1] at h
          cases h
          have hold : p ∈ subs0 → ∃ i, Ev.start i (.subscribe c p) ∈ es ++ [e] := fun hq =>
            let ⟨i, hi⟩ := ih hg hq
            ⟨i, List.mem_append_left _ hi⟩
          unfold upd at hp
          split at hp
          · next i d q =>
            split at hp
            · next hd =>
              subst hd
              rcases mem_setInsert.mp hp with rfl | hp
              · exact ⟨i, by simp⟩
              · exact hold hp
            · exact hold hp
          · split at hp
            · exact hold (mem_setRemove.mp hp).1
            · exact hold hp
          · exact hold hp
        · rw [h1] at h; cases h

theorem left {es : List Ev} {c : Cid} (hn : (starts es).Nodup) (hp : Proper es) (hc : Calm c es) : Left c (run {} es) := by
  induction es using Verif.Sdk.snoc_ind with
  | h0 =>
    refine ⟨?_, ?_, ?_, ?_, ?_⟩
    · intro ed h; rw [show (run {} []).tree = .empty from rfl, subsAt_empty] at h; cases h
    · intro subs p h; cases h
    · intro i p h; cases h
    · intro i p h; cases h
    · intro i ps rest h; cases h
  | h1 es e ih =>
    have hn0 : (starts es).Nodup := by rw [starts_append, List.nodup_append] at hn; exact hn.1
    have hp0 := proper_prefix hp
    have hl := ih hn0 hp0 hc.prefix
    have hfresh : ∀ i r, e = .start i r → mget (run {} es).tasks i = none := by
      rintro i r rfl
      cases hg : mget (run {} es).tasks i with
      | none => rfl
      | some t =>
        exfalso
        have := task_started es i (by rw [hg]; simp)
        rw [starts_append, List.nodup_append] at hn
        exact hn.2.2 i this i (by simp [starts]) rfl
    have hcon : e = .connect c → mget (run {} es).clients c = none ∧ (∀ i ps rest, mget (run {} es).tasks i ≠ some (.forget c ps rest)) := by
      rintro rfl
      have ho := hc.once es [] rfl
      refine ⟨?_, ?_⟩
      · cases hg : mget (run {} es).clients c with
        | none => rfl
        | some v => exact absurd (entry_connected (by rw [hg]; simp)) ho
      · intro i ps rest h; exact ho (forget_connected h)
    -- tasks other than the one that moves stay
    have hkeep : ∀ i t, mget (run {} es).tasks i = some t → (∀ now, e ≠ .next i now) → mget (step (run {} es) e).1.tasks i = some t := by
      intro i t ht hne
      rw [task_stays hne]
      · exact ht
      · intro r hr; rw [hfresh i r hr] at ht; cases ht
    have hsub := fun i p => hc.sub es [] i p
    have hunsub := fun i p => hc.unsub es [] i p
    have hdrop : ∀ subs, mget (run {} es).clients c = some subs → mget (step (run {} es) e).1.clients c = none →
        ∀ p, (run {} es).free (.subscribe c p) := by
      intro subs h1 h2 p
      refine hc.drop es [] e p rfl ?_ ?_
      · simp only [State.connected, h1, Option.isSome_some]
      · rw [run_snoc]; simp only [State.connected, h2, Option.isSome_none]
    rw [run_snoc]
    refine ⟨?_, ?_, ?_, ?_, ?_⟩
    · intro ed h
      rcases tree_add h with h0 | ⟨id, now, p, rfl, ht, hed⟩
      · rcases hl.tree ed h0 with ⟨subs, p, h1, h2, h3⟩ | ⟨i, ps, rest, p, h1, h2, h3⟩ | ⟨i, p, h1, h3⟩
        · by_cases he : e = .connect c
          · rw [(hcon he).1] at h1; cases h1
          · rcases entry_step h1 he with h4 | ⟨_, i, rest, h4⟩
            · by_cases hup : p ∈ upd c e subs
              · exact .inl ⟨_, p, h4, hup, h3⟩
              · refine .inr (.inr ?_)
                unfold upd at hup
                split at hup
                · exfalso
                  split at hup
                  · exact hup (mem_setInsert.mpr (.inr h2))
                  · exact hup h2
                · next i d q =>
                  split at hup
                  · next hd =>
                    subst hd
                    have : p = q := Decidable.byContradiction fun hne => hup (mem_setRemove.mpr ⟨h2, hne⟩)
                    subst this
                    refine ⟨i, p, ?_, h3⟩
                    simp only [step, begin_]
                    exact mget_mset_same _ _ _
                  · exact absurd h2 hup
                · exact absurd h2 hup
            · exact .inr (.inl ⟨i, subs, rest, p, h4, h2, h3⟩)
        · by_cases hx : ∃ now, e = .next i now
          · obtain ⟨now, rfl⟩ := hx
            exfalso
            simp only [step, h1, advance] at h
            exact ((subsAt_foldl_remove _ _).mp h).2 ⟨rfl, p, h2, h3⟩
          · exact .inr (.inl ⟨i, ps, rest, p, hkeep i _ h1 (fun now hh => hx ⟨now, hh⟩), h2, h3⟩)
        · by_cases hx : ∃ now, e = .next i now
          · obtain ⟨now, rfl⟩ := hx
            exact absurd (h3 ▸ h) (tree_unsub h1)
          · exact .inr (.inr ⟨i, p, hkeep i _ h1 (fun now hh => hx ⟨now, hh⟩), h3⟩)
      · obtain ⟨subs, h1, h2⟩ := hl.coming id p ht
        refine .inl ⟨subs, p, ?_, h2, hed⟩
        simp only [step, ht, advance]
        exact h1
    · intro subs p h1 h2
      -- what was in tree or on its way
      have hold : ∀ subs0, mget (run {} es).clients c = some subs0 → p ∈ subs0 →
          c ∈ subsAt (edges (split p)) (step (run {} es) e).1.tree ∨ ∃ i, mget (step (run {} es) e).1.tasks i = some (.subscribe c p) := by
        intro subs0 h3 h4
        rcases hl.table subs0 p h3 h4 with h5 | ⟨i, h5⟩
        · rcases tree_del (e := e) h5 with h6 | ⟨id, now, rfl, ⟨q, h6, h7⟩ | ⟨ps, rest, h6⟩⟩
          · exact .inl h6
          · exfalso
            obtain ⟨k, hk⟩ := table_origin h3 h4
            have := pattern_inj (hp0.2 id c q (unsub_task h6)) (hp0.1 k c p hk) h7
            subst this
            exact hl.going id q h6 subs0 h3 h4
          · exfalso
            rw [hl.gone id ps rest h6] at h3; cases h3
        · by_cases hx : ∃ now, e = .next i now
          · obtain ⟨now, rfl⟩ := hx
            exact .inl (tree_sub h5)
          · exact .inr ⟨i, hkeep i _ h5 (fun now hh => hx ⟨now, hh⟩)⟩
      by_cases he : e = .connect c
      · subst he
        simp only [step] at h1
        rw [mget_mset_same] at h1
        cases h1; cases h2
      · cases hg : mget (run {} es).clients c with
        | none => rw [step_none hg he] at h1; cases h1
        | some subs0 =>
          rcases entry_step hg he with h3 | ⟨h3, _⟩
          · rw [h3] at h1
            cases h1
            unfold upd at h2
            split at h2
            · next i d q =>
              split at h2
              · next hd =>
                subst hd
                rcases mem_setInsert.mp h2 with rfl | h2
                · refine .inr ⟨i, ?_⟩
                  simp only [step, begin_, hg]
                  exact mget_mset_same _ _ _
                · exact hold subs0 hg h2
              · exact hold subs0 hg h2
            · split at h2
              · exact hold subs0 hg (mem_setRemove.mp h2).1
              · exact hold subs0 hg h2
            · exact hold subs0 hg h2
          · rw [h3] at h1; cases h1
    · intro i p h
      rcases task_from h with hx | ⟨r, rfl, hr⟩ | ⟨now, t0, rfl, ht0, hr⟩
      · obtain ⟨subs, h1, h2⟩ := hl.coming i p hx
        by_cases he : e = .connect c
        · rw [(hcon he).1] at h1; cases h1
        · rcases entry_step h1 he with h3 | ⟨h3, _⟩
          · refine ⟨_, h3, ?_⟩
            unfold upd
            split
            · split
              · exact mem_setInsert.mpr (.inr h2)
              · exact h2
            · next k d q =>
              split
              · next hd =>
                subst hd
                refine mem_setRemove.mpr ⟨h2, ?_⟩
                rintro rfl
                exact hunsub k p rfl i hx
              · exact h2
            · exact h2
          · exact absurd hx (hdrop subs h1 h3 p i)
      · have hr : r = .subscribe c p := hr
        subst hr
        cases hg : mget (run {} es).clients c with
        | none => simp only [step, begin_, hg] at h; rw [hfresh i _ rfl] at h; cases h
        | some subs =>
          rcases entry_step hg (e := .start i (.subscribe c p)) (by simp) with h3 | ⟨h3, _⟩
          · exact ⟨_, h3, by simp only [upd, if_true]; exact mem_setInsert.mpr (.inl rfl)⟩
          · simp only [step, begin_, hg] at h3
            rw [mget_mset_same] at h3; cases h3
      · rcases t0 with _ | _ | _ | ⟨_, _ | _, _⟩ | _ | _ <;> exact hr.elim
    · intro i p h subs h1 h2
      rcases task_from h with hx | ⟨r, rfl, hr⟩ | ⟨now, t0, rfl, ht0, hr⟩
      · by_cases he : e = .connect c
        · subst he
          simp only [step] at h1
          rw [mget_mset_same] at h1
          cases h1; cases h2
        · cases hg : mget (run {} es).clients c with
          | none => rw [step_none hg he] at h1; cases h1
          | some subs0 =>
            have hno := hl.going i p hx subs0 hg
            rcases entry_step hg he with h3 | ⟨h3, _⟩
            · rw [h3] at h1
              cases h1
              unfold upd at h2
              split at h2
              · next k d q =>
                split at h2
                · next hd =>
                  subst hd
                  rcases mem_setInsert.mp h2 with rfl | h2
                  · exact hsub k p rfl i hx
                  · exact hno h2
                · exact hno h2
              · split at h2
                · exact hno (mem_setRemove.mp h2).1
                · exact hno h2
              · exact hno h2
            · rw [h3] at h1; cases h1
      · have hr : r = .unsubscribe c p := hr
        subst hr
        cases hg : mget (run {} es).clients c with
        | none => rw [step_none hg (by simp)] at h1; cases h1
        | some subs0 =>
          rcases entry_step hg (e := .start i (.unsubscribe c p)) (by simp) with h3 | ⟨h3, _⟩
          · rw [h3] at h1
            cases h1
            simp only [upd, if_true] at h2
            exact (mem_setRemove.mp h2).2 rfl
          · rw [h3] at h1; cases h1
      · rcases t0 with _ | _ | _ | ⟨_, _ | _, _⟩ | _ | _ <;> exact hr.elim
    · intro i ps rest h
      rcases task_from h with h | ⟨r, rfl, hr⟩ | ⟨now, t0, rfl, ht0, hr⟩
      · have h1 := hl.gone i ps rest h
        refine step_none h1 ?_
        intro he
        exact (hcon he).2 i ps rest h
      · obtain ⟨rfl, _, hg⟩ := hr
        simp only [step, begin_, beginDrop, hg]
        exact mget_mdel_same _ _
      · have hg : ∀ cs, cs = c :: rest → mget (run {} es).clients c = some ps → mget (beginDrop (run {} es) i cs).clients c = none := by
          rintro cs rfl hg
          simp only [beginDrop, hg]
          exact mget_mdel_same _ _
        rcases t0 with _ | _ | _ | ⟨_, _ | _, _⟩ | _ | _ <;> first | exact hr.elim | skip
        · simp only [step, ht0, advance]; exact hg _ hr.1 hr.2
        · simp only [step, ht0, advance]; exact hg _ hr.1 hr.2

/-- The table of clients holds what the clients asked for. -/
theorem table_wants {es : List Ev} {c : Cid} (hc : ∀ x y, es = x ++ Ev.connect c :: y → Ev.connect c ∉ x) {subs : List Str}
    (h : mget (run {} es).clients c = some subs) (p : Str) : p ∈ subs ↔ wants c p es = true := by
  induction es using Verif.Sdk.snoc_ind generalizing subs with
  | h0 => cases h
  | h1 es e ih =>
    have hc0 : ∀ x y, es = x ++ Ev.connect c :: y → Ev.connect c ∉ x := by
      rintro x y rfl; exact hc x (y ++ [e]) (by simp)
    unfold wants
    rw [List.reverse_append, List.reverse_cons, List.reverse_nil, List.nil_append, List.singleton_append]
    by_cases he : e = .connect c
    · subst he
      rw [run_snoc] at h
      simp only [step] at h
      rw [mget_mset_same] at h
      cases h
      simp [wantsRev]
    · cases hg : mget (run {} es).clients c with
      | none => rw [run_snoc, step_none hg he] at h; cases h
      | some subs0 =>
        have jh := ih hc0 hg
        rw [run_snoc] at h
        have hcon : es.reverse.contains (.connect c) = true := by
          rw [List.contains_iff_mem, List.mem_reverse]
          exact entry_connected (by rw [hg]; simp)
        rcases entry_step hg he with h1 | ⟨h1, _⟩
        · rw [h1] at h
          cases h
          cases e with
          | connect d =>
            simp only [upd, wantsRev, Bool.and_eq_true, decide_eq_true_eq]
            exact ⟨fun hh => ⟨fun hd => he (by rw [hd]), jh.mp hh⟩, fun hh => jh.mpr hh.2⟩
          | gone d => exact jh
          | next i now => exact jh
          | start i r =>
            cases r with
            | publish t d keep => exact jh
            | disconnect d => exact jh
            | subscribe d q =>
              simp only [upd, wantsRev, hcon, Bool.and_true, Bool.or_eq_true, decide_eq_true_eq]
              split
              · next hd =>
                rw [mem_setInsert]
                exact ⟨fun hh => hh.elim (fun hq => .inl ⟨hd, hq.symm⟩) (fun hh => .inr (jh.mp hh)),
                  fun hh => hh.elim (fun hq => .inl hq.2.symm) (fun hh => .inr (jh.mpr hh))⟩
              · next hd => exact ⟨fun hh => .inr (jh.mp hh), fun hh => hh.elim (fun hq => absurd hq.1 hd) jh.mpr⟩
            | unsubscribe d q =>
              simp only [upd, wantsRev, Bool.and_eq_true, Bool.not_eq_true', decide_eq_false_iff_not]
              split
              · next hd =>
                rw [mem_setRemove]
                exact ⟨fun hh => ⟨fun hq => hh.2 hq.2.symm, jh.mp hh.1⟩, fun hh => ⟨jh.mpr hh.2, fun hq => hh.1 ⟨hd, hq.symm⟩⟩⟩
              · next hd => exact ⟨fun hh => ⟨fun hq => hd hq.1, jh.mp hh⟩, fun hh => jh.mpr hh.2⟩
        · rw [h1] at h; cases h

/-- At rest, the tree holds the wanted subscriptions of the connected clients. -/
theorem at_rest {es : List Ev} {c : Cid} (hn : (starts es).Nodup) (hp : Proper es) (hc : Calm c es) (hr : (run {} es).rest) {p : Str}
    (hpp : hashLast (split p) = true) :
    c ∈ subsAt (edges (split p)) (run {} es).tree ↔ (run {} es).connected c = true ∧ wants c p es = true := by
  have hl := left hn hp hc
  have hno : ∀ i t, mget (run {} es).tasks i ≠ some t := by
    intro i t h
    have h1 : mget (run {} es).tasks i = none := hr i
    rw [h1] at h; cases h
  constructor
  · intro h
    rcases hl.tree _ h with ⟨subs, q, h1, h2, h3⟩ | ⟨i, _, _, _, h1, _⟩ | ⟨i, _, h1, _⟩
    · obtain ⟨k, hk⟩ := table_origin h1 h2
      have := pattern_inj (hp.1 k c q hk) hpp h3
      subst this
      exact ⟨by simp only [State.connected, h1, Option.isSome_some], (table_wants hc.once h1 q).mp h2⟩
    · exact absurd h1 (hno i _)
    · exact absurd h1 (hno i _)
  · rintro ⟨h1, h2⟩
    obtain ⟨subs, h3⟩ := Option.isSome_iff_exists.mp h1
    rcases hl.table subs p h3 ((table_wants hc.once h3 p).mpr h2) with h4 | ⟨i, h4⟩
    · exact h4
    · exact absurd h4 (hno i _)

/-! ## The tree as the dashboard sees it -/

theorem good_tree (es : List Ev) : Good (run {} es).tree := by
  induction es using Verif.Sdk.snoc_ind with
  | h0 => exact Bare.empty.good
  | h1 es e ih =>
    rw [run_snoc]
    cases e with
    | connect d => exact ih
    | gone d => exact ih
    | start id r =>
      cases r with
      | subscribe d p => simp only [step, begin_]; split <;> exact ih
      | unsubscribe d p => exact ih
      | publish t d keep =>
        simp only [step, begin_]
        split
        · exact ih.setRetained _ _
        · exact ih
      | disconnect d => simp only [step, begin_, beginDrop_tree]; exact ih
    | next id now =>
      simp only [step]
      split
      · unfold advance
        split
        · exact ih.insert _ _
        · exact ih.remove _ _
        · exact ih
        · simp only [beginDrop_tree]; exact ih
        · split <;> exact ih
        · exact ih.foldl_remove _ _
        · simp only [beginDrop_tree]; exact ih
      · exact ih

/-- Only a publish changes retained values. -/
theorem ret_step (s : State) (e : Ev) (q : List Str) :
    retAt q (step s e).1.tree = retAt q s.tree ∨
    ∃ id t d r, e = .start id (.publish t d (some r)) ∧ q = split t ∧ retAt q (step s e).1.tree = r := by
  cases e with
  | connect d => exact .inl rfl
  | gone d => exact .inl rfl
  | start id r =>
    cases r with
    | subscribe d p => simp only [step, begin_]; split <;> exact .inl rfl
    | unsubscribe d p => exact .inl rfl
    | publish t d keep =>
      cases keep with
      | none => exact .inl rfl
      | some r =>
        by_cases hq : q = split t
        · refine .inr ⟨id, t, d, r, rfl, hq, ?_⟩
          simp only [step, begin_]
          rw [retAt_setRetained, if_pos hq]
        · refine .inl ?_
          simp only [step, begin_]
          rw [retAt_setRetained, if_neg hq]
    | disconnect d => exact .inl (by simp only [step, begin_, beginDrop_tree])
  | next id now =>
    refine .inl ?_
    simp only [step]
    split
    · unfold advance
      split
      · exact retAt_insert
      · exact retAt_remove
      · rfl
      · simp only [beginDrop_tree]
      · split <;> rfl
      · exact retAt_foldl_remove _ _
      · simp only [beginDrop_tree]
    · rfl

theorem ret_origin {es : List Ev} {q : List Str} {r : Retained} (h : retAt q (run {} es).tree = some r) :
    ∃ id t d, Ev.start id (.publish t d (some (some r))) ∈ es ∧ q = split t := by
  induction es using Verif.Sdk.snoc_ind with
  | h0 => rw [show (run {} []).tree = .empty from rfl, retAt_empty] at h; cases h
  | h1 es e ih =>
    rw [run_snoc] at h
    rcases ret_step (run {} es) e q with h1 | ⟨id, t, d, r', rfl, hq, h1⟩
    · obtain ⟨id, t, d, h2, h3⟩ := ih (h1 ▸ h)
      exact ⟨id, t, d, List.mem_append_left _ h2, h3⟩
    · rw [h] at h1
      subst h1
      exact ⟨id, t, d, by simp, hq⟩

/-! ## Every request ends -/

/-- How many sections a request that has been routed can still take. -/
def Task.work : Task → Nat
  | .subscribe _ _ => 1
  | .unsubscribe _ _ => 1
  | .route _ _ => 0
  | .send _ todo zs => 3 * todo.length + 2 * zs.length + 2
  | .forget _ _ rest => 2 * rest.length + 2
  | .disconnect cs => 2 * cs.length + 1

def Task.routed : Task → Bool
  | .route _ _ => false
  | _ => true

theorem beginDrop_work {s : State} {id : Nat} {cs : List Cid} {t : Task} (h : mget (beginDrop s id cs).tasks id = some t) :
    t.routed = true ∧ t.work < 2 * cs.length + 1 := by
  rcases beginDrop_own s id cs t h with ⟨c, ps, rest, rfl, rfl, _⟩ | ⟨c, rest, rfl, rfl, _⟩
  · refine ⟨rfl, ?_⟩; simp only [Task.work, List.length_cons]; omega
  · refine ⟨rfl, ?_⟩; simp only [Task.work, List.length_cons]; omega

theorem own_step {s : State} {id now : Nat} {t t' : Task} (ht : mget s.tasks id = some t)
    (h : mget (step s (.next id now)).1.tasks id = some t') : t'.routed = true ∧ (t.routed = true → t'.work < t.work) := by
  simp only [step, ht] at h
  rw [advance_own] at h
  cases t with
  | subscribe c p => cases h
  | unsubscribe c p => cases h
  | route topic data => simp only [Option.some.injEq] at h; subst h; exact ⟨rfl, fun hh => by cases hh⟩
  | send msg todo zs =>
    cases todo with
    | nil =>
      obtain ⟨h1, h2⟩ := beginDrop_work h
      exact ⟨h1, fun _ => by simp only [Task.work, List.length_nil] at h2 ⊢; omega⟩
    | cons c todo =>
      simp only [Option.some.injEq] at h
      split at h <;> subst h
      · exact ⟨rfl, fun _ => by simp only [Task.work, List.length_cons]; omega⟩
      · exact ⟨rfl, fun _ => by simp only [Task.work, List.length_cons, List.length_append, List.length_nil]; omega⟩
  | forget c ps rest =>
    simp only at h
    split at h
    · cases h
    · cases h; exact ⟨rfl, fun _ => by simp only [Task.work]; omega⟩
  | disconnect cs =>
    obtain ⟨h1, h2⟩ := beginDrop_work h
    exact ⟨h1, fun _ => h2⟩

/-- The first events of a schedule. -/
theorem pre_succ (σ : Nat → Ev) (n : Nat) : (List.range (n + 1)).map σ = (List.range n).map σ ++ [σ n] := by
  rw [List.range_succ, List.map_append]; rfl

theorem starts_pre {σ : Nat → Ev} {k id : Nat} {r : Req} (hs : σ k = .start id r) {n : Nat} (hk : k < n) :
    id ∈ starts ((List.range n).map σ) := by
  refine mem_starts (r := r) ?_
  rw [← hs]
  exact List.mem_map.mpr ⟨k, List.mem_range.mpr hk, rfl⟩

section
variable {σ : Nat → Ev} (hn : ∀ n, (starts ((List.range n).map σ)).Nodup) {k id : Nat} {r : Req} (hs : σ k = .start id r)
include hn hs

theorem no_restart {n : Nat} (hk : k < n) (r' : Req) : σ n ≠ .start id r' := by
  intro h
  have h1 := hn (n + 1)
  rw [pre_succ, h, starts_append, List.nodup_append] at h1
  exact h1.2.2 id (starts_pre hs hk) id (by simp [starts]) rfl

theorem done_stays {n m : Nat} (hk : k < n) (h : (run {} ((List.range n).map σ)).done id) (hm : n ≤ m) :
    (run {} ((List.range m).map σ)).done id := by
  induction hm with
  | refl => exact h
  | @step m hm ih =>
    have hm : n ≤ m := hm
    rw [pre_succ, run_snoc]
    have ih : mget (run {} ((List.range m).map σ)).tasks id = none := ih
    show mget _ id = none
    by_cases hx : ∃ now, σ m = .next id now
    · obtain ⟨now, hx⟩ := hx
      rw [hx]; simp only [step, ih]
    · rw [task_stays (fun now hh => hx ⟨now, hh⟩) (no_restart hn hs (by omega))]
      exact ih

/-- Until it moves again, a request stays as it is. -/
theorem waits {n j : Nat} (hk : k < n) (hj : n ≤ j) {t : Task} (ht : mget (run {} ((List.range n).map σ)).tasks id = some t) :
    (∃ i, n ≤ i ∧ i < j ∧ ∃ now, σ i = .next id now ∧ mget (run {} ((List.range i).map σ)).tasks id = some t) ∨
    mget (run {} ((List.range j).map σ)).tasks id = some t := by
  induction hj with
  | refl => exact .inr ht
  | @step j hj ih =>
    have hj : n ≤ j := hj
    rcases ih with ⟨i, h1, h2, h3⟩ | ih
    · exact .inl ⟨i, h1, by omega, h3⟩
    · by_cases hx : ∃ now, σ j = .next id now
      · obtain ⟨now, hx⟩ := hx
        exact .inl ⟨j, hj, by omega, now, hx, ih⟩
      · refine .inr ?_
        rw [pre_succ, run_snoc, task_stays (fun now hh => hx ⟨now, hh⟩) (no_restart hn hs (by omega))]
        exact ih

theorem moves (hfair : ∀ k, ∃ j, k ≤ j ∧ ∃ now, σ j = .next id now) {n : Nat} (hk : k < n) {t : Task}
    (ht : mget (run {} ((List.range n).map σ)).tasks id = some t) :
    ∃ i, n ≤ i ∧ ((run {} ((List.range (i + 1)).map σ)).done id ∨
      ∃ t', mget (run {} ((List.range (i + 1)).map σ)).tasks id = some t' ∧ t'.routed = true ∧ (t.routed = true → t'.work < t.work)) := by
  obtain ⟨j, hj, now, hx⟩ := hfair n
  have : ∃ i, n ≤ i ∧ ∃ now, σ i = .next id now ∧ mget (run {} ((List.range i).map σ)).tasks id = some t := by
    rcases waits hn hs hk hj ht with ⟨i, h1, _, h3⟩ | h
    · exact ⟨i, h1, h3⟩
    · exact ⟨j, hj, now, hx, h⟩
  obtain ⟨i, hi, now, hx, ht⟩ := this
  refine ⟨i, hi, ?_⟩
  cases hg : mget (run {} ((List.range (i + 1)).map σ)).tasks id with
  | none => exact .inl hg
  | some t' =>
    refine .inr ⟨t', rfl, ?_⟩
    rw [pre_succ, run_snoc, hx] at hg
    exact own_step ht hg

theorem ends_routed (hfair : ∀ k, ∃ j, k ≤ j ∧ ∃ now, σ j = .next id now) (w : Nat) : ∀ {n : Nat}, k < n → ∀ {t : Task},
    mget (run {} ((List.range n).map σ)).tasks id = some t → t.routed = true → t.work ≤ w →
    ∃ m, n ≤ m ∧ (run {} ((List.range m).map σ)).done id := by
  induction w with
  | zero =>
    intro n hk t ht hr hw
    cases t <;> simp only [Task.work, Task.routed] at hw hr <;> first | omega | cases hr
  | succ w ih =>
    intro n hk t ht hr hw
    obtain ⟨i, hi, h | ⟨t', h1, h2, h3⟩⟩ := moves hn hs hfair hk ht
    · exact ⟨i + 1, by omega, h⟩
    · obtain ⟨m, h4, h5⟩ := ih (n := i + 1) (by omega) h1 h2 (by have := h3 hr; omega)
      exact ⟨m, by omega, h5⟩

end

end Verif.PubSub.Race
