import Verif.Props.PubSubRpc
import Verif.Spec.PubSubTerms

/-!
# Lemmas about publish/subscribe from one life of the server to the next
-/

namespace Verif.Rpc

open Verif Verif.Wire Verif.Sdk

variable {E I : Type}

/-- The database has what it must have for the topic, and nothing that it may not have. -/
structure DiskRel (db : List PubSub.Row) (S L : Slot) (topic : Str) : Prop where
  strict : ∀ k, S.disk = some k → mget db topic = some (k.data, k.untilUnix)
  loose : ∀ v, mget db topic = some v → ∃ k, L.disk = some k ∧ v = (k.data, k.untilUnix)

/-- The same for the value that is served. -/
structure MemRel (kept : Option PubSub.Kept) (S L : Slot) : Prop where
  strict : ∀ k, S.mem = some k → kept = some k
  loose : ∀ k, kept = some k → L.mem = some k

theorem baseOf_row {db : List PubSub.Row} {topic : Str} {k : PubSub.Kept} (t u : Nat) (h : mget db topic = some (k.data, k.untilUnix)) :
    PubSub.baseOf db t u topic = some (revive t u k) := by
  simp only [PubSub.baseOf, h, revive]
  cases hu : k.untilUnix with
  | none => rfl
  | some w => rfl

theorem mem_start {db : List PubSub.Row} {S L : Slot} {topic : Str} (h : DiskRel db S L topic) (t u : Nat) :
    MemRel (PubSub.baseOf db t u topic) (S.start t u) (L.start t u) := by
  constructor
  · intro k hk
    simp only [Slot.start, Option.map_eq_some_iff] at hk
    obtain ⟨k', h1, rfl⟩ := hk
    exact baseOf_row t u (h.strict k' h1)
  · intro k hk
    cases hm : mget db topic with
    | none => simp [PubSub.baseOf, hm] at hk
    | some v =>
      obtain ⟨k', h1, rfl⟩ := h.loose v hm
      rw [baseOf_row t u hm] at hk
      injection hk with hk
      simp [Slot.start, h1, hk]

theorem valid_left {t0 : Nat} {a b : List PubSub.Op} (h : PubSub.Valid t0 (a ++ b)) : PubSub.Valid t0 a := by
  refine ⟨?_, ?_⟩
  · have := h.fresh; rw [PubSub.connects_append] at this; exact (List.nodup_append.mp this).1
  · have := h.clock; rw [times_append] at this
    exact this.sublist (List.Sublist.cons_cons _ (List.sublist_append_left ..))

theorem plain_left {db : List PubSub.Row} {a b : List PubSub.Op} (h : PubSub.PlainTopics db (a ++ b)) : PubSub.PlainTopics db a :=
  ⟨h.rows, fun t d tt n u hm => h.ops t d tt n u (List.mem_append_left _ hm)⟩

theorem flushes_left {a b : List PubSub.Op} (h : PubSub.FlushesOk (a ++ b)) : PubSub.FlushesOk a :=
  fun now hm => h now (List.mem_append_left _ hm)

section
variable {env : HubEnv} {bg : I → Option PubSub.Op}

theorem onHub_count (k : Nat) (a : Act I) : (hubOp env bg k a).toList.length = if onHub bg a then 1 else 0 := by
  cases a with
  | ticked x =>
    have : ∀ o : Option PubSub.Op, o.toList.length = if o.isSome = true then 1 else 0 := by intro o; cases o <;> rfl
    exact this _
  | did l cmd now r => cases cmd <;> rfl

theorem slot_act_count (b : Bool) (topic : Str) (s : Slot) (a : Act I) :
    (s.act b env.dflt env.unix bg topic a).count = s.count + if onHub bg a then 1 else 0 := by
  unfold Slot.act
  repeat' split
  all_goals rfl

/-- An act that is neither a retained publish nor a flush. -/
theorem slot_act_same (b : Bool) (topic : Str) (s : Slot) (a : Act I) (h : retains topic a = false)
    (hf : ∀ x now, a = .ticked x → bg x ≠ some (.flush now true)) :
    (s.act b env.dflt env.unix bg topic a).mem = s.mem ∧ (s.act b env.dflt env.unix bg topic a).disk = s.disk := by
  unfold Slot.act
  simp only
  generalize (s.count + if onHub bg a = true then 1 else 0) = n
  split
  · next c t opts data now =>
    have : ¬ (t = topic ∧ opts.retain = some true) := by
      rintro ⟨h1, h2⟩; simp [retains, h1, h2] at h
    rw [if_neg this]; exact ⟨rfl, rfl⟩
  · next x =>
    split
    · next now hx => exact absurd hx (hf x now rfl)
    · exact ⟨rfl, rfl⟩
  · exact ⟨rfl, rfl⟩

/-- One life. -/
theorem slots (htasks : ∀ x op, bg x = some op → ofHub op = true) {db : List PubSub.Row} (hn : (db.map (·.1)).Nodup) {t0 u0 : Nat} (topic : Str)
    {S L : Slot} (hd : DiskRel db S L topic) (A : List (Act I)) (ha : Answered env A) (hv : PubSub.Valid t0 (hubOps env bg 0 A))
    (hpl : PubSub.PlainTopics db (hubOps env bg 0 A)) (hf : PubSub.FlushesOk (hubOps env bg 0 A)) :
    ((S.start t0 u0).acts false env.dflt env.unix bg topic A).count = (hubOps env bg 0 A).length ∧
    ((L.start t0 u0).acts true env.dflt env.unix bg topic A).count = (hubOps env bg 0 A).length ∧
    DiskRel (PubSub.run env.dflt (PubSub.boot db t0 u0) (hubOps env bg 0 A)).1.db ((S.start t0 u0).acts false env.dflt env.unix bg topic A)
      ((L.start t0 u0).acts true env.dflt env.unix bg topic A) topic ∧
    MemRel (PubSub.kept env.dflt (PubSub.baseOf db t0 u0) topic (hubOps env bg 0 A)) ((S.start t0 u0).acts false env.dflt env.unix bg topic A)
      ((L.start t0 u0).acts true env.dflt env.unix bg topic A) := by
  induction A using Sdk.snoc_ind with
  | h0 => exact ⟨rfl, rfl, ⟨hd.strict, hd.loose⟩, mem_start hd t0 u0⟩
  | h1 A a ih =>
    have hv0 := hv; have hpl0 := hpl; have hf0 := hf
    rw [hubOps_snoc] at hv hpl hf
    obtain ⟨i1, i2, i3, i4⟩ := ih ha.left (valid_left hv) (plain_left hpl) (flushes_left hf)
    have eS : (S.start t0 u0).acts false env.dflt env.unix bg topic (A ++ [a]) =
        ((S.start t0 u0).acts false env.dflt env.unix bg topic A).act false env.dflt env.unix bg topic a := by simp [Slot.acts]
    have eL : (L.start t0 u0).acts true env.dflt env.unix bg topic (A ++ [a]) =
        ((L.start t0 u0).acts true env.dflt env.unix bg topic A).act true env.dflt env.unix bg topic a := by simp [Slot.acts]
    rw [eS, eL]
    refine ⟨?_, ?_, ?_⟩
    · rw [slot_act_count, hubOps_snoc, List.length_append, onHub_count, i1]
    · rw [slot_act_count, hubOps_snoc, List.length_append, onHub_count, i2]
    generalize (S.start t0 u0).acts false env.dflt env.unix bg topic A = s at *
    generalize (L.start t0 u0).acts true env.dflt env.unix bg topic A = l at *
    -- nothing but retained publishes and flushes changes anything
    have hsame : retains topic a = false → (∀ x now, a = .ticked x → bg x ≠ some (.flush now true)) →
        (∀ now ok, hubOp env bg (hubOps env bg 0 A).length a ≠ some (.flush now ok)) →
        PubSub.kept env.dflt (PubSub.baseOf db t0 u0) topic (hubOps env bg 0 (A ++ [a])) =
          PubSub.kept env.dflt (PubSub.baseOf db t0 u0) topic (hubOps env bg 0 A) →
        DiskRel (PubSub.run env.dflt (PubSub.boot db t0 u0) (hubOps env bg 0 (A ++ [a]))).1.db (s.act false env.dflt env.unix bg topic a)
          (l.act true env.dflt env.unix bg topic a) topic ∧
        MemRel (PubSub.kept env.dflt (PubSub.baseOf db t0 u0) topic (hubOps env bg 0 (A ++ [a]))) (s.act false env.dflt env.unix bg topic a)
          (l.act true env.dflt env.unix bg topic a) := by
      intro h1 h2 h3 h4
      obtain ⟨s1, s2⟩ := slot_act_same (env := env) (bg := bg) false topic s a h1 h2
      obtain ⟨l1, l2⟩ := slot_act_same (env := env) (bg := bg) true topic l a h1 h2
      have hdb : (PubSub.run env.dflt (PubSub.boot db t0 u0) (hubOps env bg 0 (A ++ [a]))).1.db =
          (PubSub.run env.dflt (PubSub.boot db t0 u0) (hubOps env bg 0 A)).1.db := by
        rw [hubOps_snoc, PubSub.run_append]
        refine PubSub.db_quiet _ _ ?_
        intro now ok hm
        refine h3 now ok ?_
        cases hh : hubOp env bg (hubOps env bg 0 A).length a with
        | none => rw [hh] at hm; cases hm
        | some op => rw [hh] at hm; rw [List.mem_singleton.mp hm]
      rw [h4, hdb]
      exact ⟨⟨fun k hk => i3.strict k (s2 ▸ hk), fun v hv => by rw [l2]; exact i3.loose v hv⟩,
        ⟨fun k hk => i4.strict k (s1 ▸ hk), fun k hk => by rw [l1]; exact i4.loose k hk⟩⟩
    cases a with
    | ticked x =>
      cases hx : bg x with
      | none =>
        refine hsame rfl ?_ ?_ ?_
        · intro y now he; cases he; rw [hx]; exact nofun
        · intro now ok h; simp [hubOp, hx] at h
        · rw [hubOps_snoc]; simp [hubOp, hx]
      | some op =>
        have ht := htasks x op hx
        have hk : PubSub.kept env.dflt (PubSub.baseOf db t0 u0) topic (hubOps env bg 0 (A ++ [.ticked x])) =
            PubSub.kept env.dflt (PubSub.baseOf db t0 u0) topic (hubOps env bg 0 A) := by
          rw [hubOps_snoc]
          simp only [hubOp, hx, Option.toList_some]
          rw [kept_op]
          cases op <;> first | rfl | cases ht
        cases hop : op with
        | flush now ok =>
          subst hop
          cases ok with
          | false =>
            exfalso
            refine hf now (List.mem_append_right _ ?_)
            simp [hubOp, hx]
          | true =>
            have hsy := PubSub.SyncInv.of_run (dflt := env.dflt) (u0 := u0) hn _ hv0 hpl0 hf0
            have hops : hubOps env bg 0 (A ++ [.ticked x]) = hubOps env bg 0 A ++ [.flush now true] := by
              rw [hubOps_snoc]; simp [hubOp, hx]
            have hdirty : (PubSub.run env.dflt (PubSub.boot db t0 u0) (hubOps env bg 0 (A ++ [.ticked x]))).1.dirty = false := by
              rw [hops, PubSub.run_snoc]
              simp only [PubSub.step]
              split
              · rfl
              · next hd => exact Bool.not_eq_true _ ▸ hd
            obtain ⟨g1, g2⟩ := hsy.sync hdirty
            have hkr : ∀ y, PubSub.keptRev env.dflt (PubSub.baseOf db t0 u0) y (hubOps env bg 0 (A ++ [.ticked x])).reverse =
                PubSub.kept env.dflt (PubSub.baseOf db t0 u0) y (hubOps env bg 0 (A ++ [.ticked x])) := fun _ => rfl
            have htime : PubSub.lastTime t0 (hubOps env bg 0 (A ++ [.ticked x])) = now := by
              rw [hops, PubSub.lastTime_snoc]; rfl
            rw [htime] at g2
            have e1 : (s.act false env.dflt env.unix bg topic (.ticked x)).disk = s.mem.filter (fun k => k.live now) := by
              simp [Slot.act, hx]
            have e2 : (l.act true env.dflt env.unix bg topic (.ticked x)).disk = l.mem := by simp [Slot.act, hx]
            have e3 : (s.act false env.dflt env.unix bg topic (.ticked x)).mem = s.mem := by simp [Slot.act, hx]
            have e4 : (l.act true env.dflt env.unix bg topic (.ticked x)).mem = l.mem := by simp [Slot.act, hx]
            refine ⟨⟨?_, ?_⟩, ⟨?_, ?_⟩⟩
            · intro k hk'
              rw [e1, Option.filter_eq_some_iff] at hk'
              refine g2 topic k ?_ hk'.2
              rw [hkr, hk]; exact i4.strict k hk'.1
            · intro v hv'
              obtain ⟨k, h1, h2⟩ := g1 topic v hv'
              rw [hkr, hk] at h1
              exact ⟨k, by rw [e2]; exact i4.loose k h1, h2⟩
            · intro k hk'; rw [hk]; exact i4.strict k (e3 ▸ hk')
            · intro k hk'; rw [hk] at hk'; rw [e4]; exact i4.loose k hk'
        | _ =>
          subst hop
          refine hsame rfl ?_ ?_ hk
          · intro y now he; cases he; rw [hx]; exact nofun
          · intro now ok h; simp [hubOp, hx] at h
    | did c cmd now r =>
      have hno : ∀ now' ok, hubOp env bg (hubOps env bg 0 A).length (.did c cmd now r : Act I) ≠ some (.flush now' ok) := by
        intro now' ok h; cases cmd <;> cases h
      have hnt : ∀ x now', (.did c cmd now r : Act I) = .ticked x → bg x ≠ some (.flush now' true) := by intro x _ h; cases h
      cases cmd with
      | publish t opts payload =>
        have hr := ha A c t opts payload now r [] rfl
        have hops : hubOps env bg 0 (A ++ [.did c (.publish t opts payload) now r]) = hubOps env bg 0 A ++ [.publish t payload (opts.retain.getD false)
            (some (opts.ttl.getD env.dflt)) now (env.unix (hubOps env bg 0 A).length)] := by
          rw [hubOps_snoc]; rfl
        by_cases hret : opts.retain = some true
        · by_cases ht : t = topic
          · subst ht
            have hdb : (PubSub.run env.dflt (PubSub.boot db t0 u0) (hubOps env bg 0 (A ++ [.did c (.publish t opts payload) now r]))).1.db =
                (PubSub.run env.dflt (PubSub.boot db t0 u0) (hubOps env bg 0 A)).1.db := by
              rw [hops, PubSub.run_append]
              exact PubSub.db_quiet _ _ (by intro n ok hm; simp at hm)
            have hok : r = some .ok → ∀ (b : Bool) (q : Slot), (q.act b env.dflt env.unix bg t (.did c (.publish t opts payload) now r)).disk = q.disk ∧
                (q.act b env.dflt env.unix bg t (.did c (.publish t opts payload) now r)).mem =
                  (if payload = [] then none else some ⟨payload, some (now + opts.ttl.getD env.dflt * PubSub.second), some (env.unix q.count + opts.ttl.getD env.dflt)⟩) := by
              rintro rfl b q
              simp [Slot.act, hret]
            by_cases hd' : payload = []
            · subst hd'
              have hr' : r = some .ok := by rw [hr]; simp [PubSub.reachesRouting]
              obtain ⟨s1, s2⟩ := hok hr' false s
              obtain ⟨l1, l2⟩ := hok hr' true l
              have hk : PubSub.kept env.dflt (PubSub.baseOf db t0 u0) t (hubOps env bg 0 (A ++ [.did c (.publish t opts []) now r])) = none := by
                rw [hops, kept_op, hret]; simp [PubSub.keptRev]
              rw [hdb, hk]
              exact ⟨⟨fun k h => i3.strict k (s1 ▸ h), fun v h => by rw [l1]; exact i3.loose v h⟩,
                ⟨(fun k h => by rw [s2] at h; cases h), (fun k h => by cases h)⟩⟩
            · cases hrep : PubSub.representable now (opts.ttl.getD env.dflt) with
              | true =>
                have hr' : r = some .ok := by rw [hr]; simp [PubSub.reachesRouting, hrep]
                obtain ⟨s1, s2⟩ := hok hr' false s
                obtain ⟨l1, l2⟩ := hok hr' true l
                rw [if_neg hd', i1] at s2
                rw [if_neg hd', i2] at l2
                have hk : PubSub.kept env.dflt (PubSub.baseOf db t0 u0) t (hubOps env bg 0 (A ++ [.did c (.publish t opts payload) now r])) =
                    some ⟨payload, some (now + opts.ttl.getD env.dflt * PubSub.second), some (env.unix (hubOps env bg 0 A).length + opts.ttl.getD env.dflt)⟩ := by
                  rw [hops, kept_op, hret]; simp [PubSub.keptRev, hd', hrep]
                rw [hdb, hk]
                exact ⟨⟨fun k h => i3.strict k (s1 ▸ h), fun v h => by rw [l1]; exact i3.loose v h⟩,
                  ⟨fun k h => by rw [s2] at h; exact h, fun k h => by rw [l2]; exact h⟩⟩
              | false =>
                have hr' : r = none := by rw [hr]; simp [PubSub.reachesRouting, hrep, hret, hd']
                subst hr'
                refine hsame rfl hnt hno ?_
                rw [hops, kept_op, hret]; simp [PubSub.keptRev, hd', hrep, PubSub.kept]
          · refine hsame ?_ hnt hno ?_
            · cases r with
              | none => rfl
              | some q => cases q <;> simp [retains, ht]
            · rw [hops, kept_op, hret]; simp [PubSub.keptRev, ht, PubSub.kept]
        · refine hsame ?_ hnt hno ?_
          · cases r with
            | none => rfl
            | some q => cases q <;> simp [retains, hret]
          · have hb : opts.retain.getD false = false := by
              cases h : opts.retain with
              | none => rfl
              | some b => cases b with | false => rfl | true => exact absurd h hret
            rw [hops, kept_op, hb]; rfl
      | subscribe p => refine hsame rfl hnt hno ?_; rw [hubOps_snoc]; simp only [hubOp, hubCall, Option.toList_some]; rw [kept_op]; rfl
      | unsubscribe p => refine hsame rfl hnt hno ?_; rw [hubOps_snoc]; simp only [hubOp, hubCall, Option.toList_some]; rw [kept_op]; rfl
      | _ => refine hsame rfl hnt hno ?_; rw [hubOps_snoc]; simp only [hubOp, hubCall, Option.toList_none, List.append_nil]

/-- The operations of plain acts are plain. -/
theorem plain_ops (htasks : ∀ x op, bg x = some op → ofHub op = true) {db : List PubSub.Row} (hrows : ∀ r ∈ db, PubSub.plainTopic r.1 = true)
    {A : List (Act I)} (hA : PlainActs A) : PubSub.PlainTopics db (hubOps env bg 0 A) := by
  refine ⟨hrows, fun topic data ttl now un => ?_⟩
  generalize 0 = k
  induction A generalizing k with
  | nil => intro h; cases h
  | cons a A ih =>
    intro hmem
    simp only [hubOps] at hmem
    rcases List.mem_append.mp hmem with hmem | hmem
    · cases a with
      | did c cmd nw rr =>
        have hcall : hubCall env k c nw cmd = some (.publish topic data true ttl now un) := by simpa [hubOp] using hmem
        cases cmd with
        | publish t opts pl =>
          simp only [hubCall] at hcall
          injection hcall with hcall
          injection hcall with e1 e2 e3
          subst e1
          have hret : opts.retain = some true := by
            cases hh : opts.retain with
            | none => rw [hh] at e3; cases e3
            | some b => rw [hh] at e3; simp at e3; rw [e3]
          have := hA c t opts pl nw rr (List.mem_cons_self ..) hret
          simp [PubSub.plainTopic, this]
        | subscribe p' => cases hcall
        | unsubscribe p' => cases hcall
        | _ => cases hcall
      | ticked x =>
        have hx : bg x = some (.publish topic data true ttl now un) := by simpa [hubOp] using hmem
        have := htasks x _ hx
        cases this
    · exact ih (fun c t o pl nw rr hm => hA c t o pl nw rr (List.mem_cons_of_mem _ hm)) _ hmem

theorem flushes_ops {A : List (Act I)} (hA : ∀ x now, Act.ticked x ∈ A → bg x ≠ some (.flush now false)) : PubSub.FlushesOk (hubOps env bg 0 A) := by
  intro now
  generalize 0 = k
  induction A generalizing k with
  | nil => intro h; cases h
  | cons a A ih =>
    intro hmem
    simp only [hubOps] at hmem
    rcases List.mem_append.mp hmem with hmem | hmem
    · cases a with
      | did c cmd nw rr => cases cmd <;> simp [hubOp, hubCall] at hmem
      | ticked x =>
        refine hA x now (List.mem_cons_self ..) ?_
        simpa [hubOp] using hmem
    · exact ih (fun x n hm => hA x n (List.mem_cons_of_mem _ hm)) _ hmem

end

section
variable {pr : Printer} {desk : Desk I} {bg : I → Option PubSub.Op} {part : E → Hub}

/-- The operations of a life are a valid history. -/
theorem term_valid {db : List PubSub.Row} {r : Term E I} (h : r.Ok pr desk bg part db) :
    PubSub.Valid r.t0 (hubOps r.env bg 0 (r.did pr desk bg part)) := by
  have hr := hub_hosted h.served h.starts r.es h.ordinary
  refine ⟨?_, ?_⟩
  · have : PubSub.connects (hubOps r.env bg 0 (acts (hubTrace pr r.srv desk bg part r.e0 r.es))) = List.range _ := hr.range
    exact this ▸ List.nodup_range
  · exact h.clock.sublist (List.Sublist.cons_cons _ (times_sublist h.served.tasks _ 0))

theorem term_answered {db : List PubSub.Row} {r : Term E I} (h : r.Ok pr desk bg part db) : Answered r.env (r.did pr desk bg part) :=
  answered h.served h.starts (hub_hosted h.served h.starts r.es h.ordinary).facts

theorem term_left {db : List PubSub.Row} {r : Term E I} (h : r.Ok pr desk bg part db) :
    r.left pr desk bg part = (PubSub.run r.env.dflt (PubSub.boot db r.t0 r.u0) (hubOps r.env bg 0 (r.did pr desk bg part))).1.db := by
  have hr := hub_hosted h.served h.starts r.es h.ordinary
  unfold Term.left
  rw [hr.facts.engine, hub_state h.served (by rw [h.starts]), hubRun_st, h.starts]
  rfl

/-- What a life leaves behind. -/
theorem term_step {db : List PubSub.Row} (hn : (db.map (·.1)).Nodup) (hrows : ∀ r ∈ db, PubSub.plainTopic r.1 = true) {r : Term E I}
    (h : r.Ok pr desk bg part db) :
    ((r.left pr desk bg part).map (·.1)).Nodup ∧ (∀ x ∈ r.left pr desk bg part, PubSub.plainTopic x.1 = true) ∧
    ∀ topic (S L : Slot), DiskRel db S L topic →
      DiskRel (r.left pr desk bg part) ((S.start r.t0 r.u0).acts false r.env.dflt r.env.unix bg topic (r.did pr desk bg part))
        ((L.start r.t0 r.u0).acts true r.env.dflt r.env.unix bg topic (r.did pr desk bg part)) topic := by
  have hpl := plain_ops (env := r.env) h.served.tasks hrows h.plain
  have hf := flushes_ops (env := r.env) h.flushes
  have hsy := PubSub.SyncInv.of_run (dflt := r.env.dflt) (u0 := r.u0) hn _ (term_valid h) hpl hf
  rw [term_left h]
  exact ⟨hsy.wf, hsy.plain, fun topic S L hd => (slots h.served.tasks hn topic hd _ (term_answered h) (term_valid h) hpl hf).2.2.1⟩

/-- What the lives before have left behind, for the present one. -/
theorem terms_last (past : List (Term E I)) : ∀ {db : List PubSub.Row}, (db.map (·.1)).Nodup → (∀ r ∈ db, PubSub.plainTopic r.1 = true) →
    ∀ {now : Term E I}, Terms pr desk bg part db (past ++ [now]) →
    ∃ db', (db'.map (·.1)).Nodup ∧ (∀ r ∈ db', PubSub.plainTopic r.1 = true) ∧ now.Ok pr desk bg part db' ∧
      ∀ topic (S L : Slot), DiskRel db S L topic →
        DiskRel db' (Slot.terms pr desk bg part false topic S past) (Slot.terms pr desk bg part true topic L past) topic := by
  induction past with
  | nil => intro db hn hrows now h; exact ⟨db, hn, hrows, h.1, fun _ _ _ hd => hd⟩
  | cons r past ih =>
    intro db hn hrows now h
    obtain ⟨h1, h2⟩ := h
    obtain ⟨k1, k2, k3⟩ := term_step hn hrows h1
    obtain ⟨db', g1, g2, g3, g4⟩ := ih k1 k2 h2
    exact ⟨db', g1, g2, g3, fun topic S L hd => g4 topic _ _ (k3 topic S L hd)⟩

theorem disk_first (db : List PubSub.Row) (topic : Str) :
    DiskRel db { disk := (mget db topic).map rowValue } { disk := (mget db topic).map rowValue } topic := by
  constructor
  · intro k hk
    simp only [Option.map_eq_some_iff] at hk
    obtain ⟨v, h1, rfl⟩ := hk
    exact h1
  · intro v hv
    exact ⟨rowValue v, by simp [hv], rfl⟩

end

end Verif.Rpc
