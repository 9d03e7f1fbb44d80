import Verif.Proofs.PubSubRpc7

/-!
# Lemmas about publish/subscribe behind the network: what a subscription is greeted with
-/

namespace Verif.Rpc

open Verif Verif.Wire Verif.Sdk

variable {E I : Type}

/-- A publish is answered with ok, unless it dies. -/
def Answered (env : HubEnv) (A : List (Act I)) : Prop :=
  ∀ x c topic opts payload now r y, A = x ++ .did c (.publish topic opts payload) now r :: y →
    r = if PubSub.reachesRouting env.dflt payload (opts.retain.getD false) (some (opts.ttl.getD env.dflt)) now then some .ok else none

theorem Answered.left {env : HubEnv} {a b : List (Act I)} (h : Answered env (a ++ b)) : Answered env a :=
  fun x c topic opts payload now r y hs => h x c topic opts payload now r (y ++ b) (by rw [hs]; simp)

theorem held_same {dflt : Nat} {u : List (Act I)} {a : Act I} {topic : Str} {data : Bytes} {till : Nat} (h : retains topic a = false) :
    Held dflt (u ++ [a]) topic data till ↔ Held dflt u topic data till := by
  constructor
  · rintro ⟨x, c, opts, now, y, hs, h1, h2, h3, h4⟩
    rcases split_snoc hs with ⟨_, rfl, _⟩ | ⟨v', rfl, rfl⟩
    · simp [retains, h1] at h
    · exact ⟨x, c, opts, now, v', rfl, h1, h2, h3, fun b hb => h4 b (List.mem_append.mpr (.inl hb))⟩
  · rintro ⟨x, c, opts, now, y, rfl, h1, h2, h3, h4⟩
    refine ⟨x, c, opts, now, y ++ [a], by simp, h1, h2, h3, ?_⟩
    intro b hb
    rcases List.mem_append.mp hb with hb | hb
    · exact h4 b hb
    · rw [List.mem_singleton.mp hb]; exact h

theorem kept_op (dflt : Nat) (base : Str → Option PubSub.Kept) (topic : Str) (h : List PubSub.Op) (op : PubSub.Op) :
    PubSub.kept dflt base topic (h ++ [op]) = PubSub.keptRev dflt base topic (op :: h.reverse) := by
  unfold PubSub.kept; rw [List.reverse_append]; rfl

section
variable {env : HubEnv} {bg : I → Option PubSub.Op}

/-- What the broker keeps is what is held after the acts. -/
theorem held_iff (htasks : ∀ x op, bg x = some op → ofHub op = true) {t0 u0 : Nat} {u : List (Act I)} (ha : Answered env u) (topic : Str) :
    (∀ k, PubSub.kept env.dflt (PubSub.baseOf [] t0 u0) topic (hubOps env bg 0 u) = some k → ∃ till, k.until_ = some till) ∧
    ∀ data till, (∃ un, PubSub.kept env.dflt (PubSub.baseOf [] t0 u0) topic (hubOps env bg 0 u) = some ⟨data, some till, un⟩) ↔
      Held env.dflt u topic data till := by
  induction u using Sdk.snoc_ind with
  | h0 =>
    refine ⟨(by intro k h; cases h), fun data till => ⟨?_, ?_⟩⟩
    · rintro ⟨un, h⟩; cases h
    · rintro ⟨x, c, opts, now, y, h, _⟩; cases x <;> cases h
  | h1 u a ih =>
    have ih := ih ha.left
    rw [hubOps_snoc]
    have hsame : retains topic a = false → ∀ K, K = PubSub.kept env.dflt (PubSub.baseOf [] t0 u0) topic (hubOps env bg 0 u) →
        (∀ k, K = some k → ∃ till, k.until_ = some till) ∧
        ∀ data till, (∃ un, K = some (⟨data, some till, un⟩ : PubSub.Kept)) ↔ Held env.dflt (u ++ [a]) topic data till := by
      rintro h1 K rfl
      exact ⟨ih.1, fun data till => (ih.2 data till).trans (held_same h1).symm⟩
    cases a with
    | ticked x =>
      refine hsame rfl _ ?_
      simp only [hubOp]
      cases hx : bg x with
      | none => rw [Option.toList_none, List.append_nil]
      | some op =>
        rw [Option.toList_some, kept_op]
        have ht := htasks x op hx
        cases op <;> first | rfl | cases ht
    | did c cmd now r =>
      cases cmd with
      | publish t opts payload =>
        have hr := ha u c t opts payload now r [] rfl
        simp only [hubOp, hubCall, Option.toList_some]
        rw [kept_op]
        cases hk : opts.retain.getD false with
        | false =>
          have hret : opts.retain ≠ some true := by intro h; rw [h] at hk; cases hk
          refine hsame ?_ _ ?_
          · cases r with
            | none => rfl
            | some q => cases q <;> simp [retains, hret]
          · rfl
        | true =>
          have hret : opts.retain = some true := by
            cases h : opts.retain with
            | none => rw [h] at hk; cases hk
            | some b => rw [h] at hk; simp at hk; rw [hk]
          by_cases ht : t = topic
          · subst ht
            by_cases hd : payload = []
            · subst hd
              have hr' : r = some .ok := by rw [hr]; simp [PubSub.reachesRouting]
              subst hr'
              simp only [PubSub.keptRev, if_true]
              refine ⟨(by intro k h; cases h), fun data till => ⟨?_, ?_⟩⟩
              · rintro ⟨un, h⟩; cases h
              · rintro ⟨x, c', opts', now', y, hs, h1, h2, h3, h4⟩
                rcases split_snoc hs with ⟨_, he, _⟩ | ⟨v', rfl, rfl⟩
                · injection he with _ he; injection he with _ _ he; exact absurd he h2
                · have := h4 _ (List.mem_append.mpr (.inr (List.mem_singleton.mpr rfl)))
                  simp [retains, hret] at this
            · cases hrep : PubSub.representable now (opts.ttl.getD env.dflt) with
              | true =>
                have hr' : r = some .ok := by rw [hr]; simp [PubSub.reachesRouting, hrep]
                subst hr'
                simp only [PubSub.keptRev, if_true, if_neg hd, Option.getD_some, hrep]
                refine ⟨?_, fun data till => ⟨?_, ?_⟩⟩
                · intro k h; injection h with h; subst h; exact ⟨_, rfl⟩
                · rintro ⟨un, h⟩
                  injection h with h
                  injection h with h1 h2 h3
                  injection h2 with h2
                  subst h1
                  exact ⟨u, c, opts, now, [], rfl, hret, hd, h2.symm, (by intro a h; cases h)⟩
                · rintro ⟨x, c', opts', now', y, hs, h1, h2, h3, h4⟩
                  rcases split_snoc hs with ⟨_, he, _⟩ | ⟨v', rfl, rfl⟩
                  · injection he with e1 e2 e3
                    injection e2 with _ e5 e6
                    subst e3 e5 e6
                    rw [h3]; exact ⟨_, rfl⟩
                  · have := h4 _ (List.mem_append.mpr (.inr (List.mem_singleton.mpr rfl)))
                    simp [retains, hret] at this
              | false =>
                have hr' : r = none := by
                  rw [hr]
                  simp [PubSub.reachesRouting, hrep, hk, hd]
                subst hr'
                refine hsame rfl _ ?_
                simp only [hk, PubSub.keptRev, if_true, if_neg hd, Option.getD_some, hrep]
                rfl
          · refine hsame ?_ _ ?_
            · cases r with
              | none => rfl
              | some q => cases q <;> simp [retains, ht]
            · simp only [PubSub.keptRev, if_neg ht]; rfl
      | subscribe p => refine hsame rfl _ ?_; simp only [hubOp, hubCall, Option.toList_some]; rw [kept_op]; rfl
      | unsubscribe p => refine hsame rfl _ ?_; simp only [hubOp, hubCall, Option.toList_some]; rw [kept_op]; rfl
      | _ => refine hsame rfl _ ?_; simp only [hubOp, hubCall, Option.toList_none, List.append_nil]

theorem times_append (a b : List PubSub.Op) : PubSub.times (a ++ b) = PubSub.times a ++ PubSub.times b := by
  induction a with
  | nil => rfl
  | cons o a ih => cases o <;> simp [PubSub.times, ih]

theorem times_sublist (htasks : ∀ x op, bg x = some op → ofHub op = true) (A : List (Act I)) (k : Nat) : (PubSub.times (hubOps env bg k A)).Sublist (A.flatMap (readings bg)) := by
  induction A generalizing k with
  | nil => exact List.Sublist.refl _
  | cons a A ih =>
    simp only [hubOps, times_append, List.flatMap_cons]
    refine List.Sublist.append ?_ (ih _)
    cases a with
    | did l cmd now r => cases cmd <;> simp [hubOp, hubCall, PubSub.times, readings]
    | ticked x =>
      simp only [hubOp, readings]
      cases hx : bg x with
      | none => simp [PubSub.times]
      | some op =>
        have := htasks x op hx
        cases op <;> first | cases this; done | simp [PubSub.times]

end

section
variable {pr : Printer} {srv : Server E I} {env : HubEnv} {part : E → Hub} {bg : I → Option PubSub.Op} {desk : Desk I} {e0 : E}

theorem answered (hp : PubPart srv env part bg desk) {db : List PubSub.Row} {t0 u0 : Nat} (hb : part e0 = { st := PubSub.boot db t0 u0 })
    {w : World E} {tr : List (Obs I)} (hf : Facts pr srv e0 w tr) : Answered env (acts tr) := by
  intro x c topic opts payload now r y hs
  rw [hub_answer hp (by rw [hb]) hf hs rfl]
  simp only [hubExec, hubCall]
  cases hx : PubSub.reachesRouting env.dflt payload (opts.retain.getD false) (some (opts.ttl.getD env.dflt)) now with
  | true =>
    obtain ⟨s', h1, _, _⟩ := PubSub.publish_eq (s := (hubRun env (part e0) (hubOps env bg 0 x)).st) (topic := topic)
      (unixNow := env.unix (hubRun env (part e0) (hubOps env bg 0 x)).steps) hx
    have hpan : (PubSub.step env.dflt (hubRun env (part e0) (hubOps env bg 0 x)).st (.publish topic payload (opts.retain.getD false)
        (some (opts.ttl.getD env.dflt)) now (env.unix (hubRun env (part e0) (hubOps env bg 0 x)).steps))).2.panicked = false := by
      simp only [PubSub.step]; rw [h1]; simp [PubSub.deliver]
    simp [hpan]
  | false =>
    have hpan : (PubSub.step env.dflt (hubRun env (part e0) (hubOps env bg 0 x)).st (.publish topic payload (opts.retain.getD false)
        (some (opts.ttl.getD env.dflt)) now (env.unix (hubRun env (part e0) (hubOps env bg 0 x)).steps))).2.panicked = true := by
      simp only [PubSub.step]; rw [PubSub.publish_panics hx]
    simp [hpan]

/-- What a subscription is greeted with, by what the broker keeps, whatever it found in the database when it started. -/
theorem greeted_kept (hp : PubPart srv env part bg desk) {db : List PubSub.Row} (hdb : (db.map (·.1)).Nodup)
    (hrows : ∀ r ∈ db, PubSub.plainTopic r.1 = true) {t0 u0 : Nat} (hb : part e0 = { st := PubSub.boot db t0 u0 })
    {w : World E} {tr : List (Obs I)} {arr : List (Nat × Bytes)} {sent : List (Nat × PubSub.Msg)} {n : Nat}
    (h : Ready pr srv env bg e0 w tr arr sent n) (hpa : ProperActs (acts tr)) (hck : ClockActs bg t0 (acts tr)) (hpl : PlainActs (acts tr)) (l : Nat)
    {u : List (Act I)} {p : Str} {now : Nat} {r : Option Response} {v : List (Act I)} (hs : acts tr = u ++ .did l (.subscribe p) now r :: v)
    {msgs : List PubSub.Msg} (hm : ((chunks env bg (part e0) (acts tr)).map (sentTo l))[u.length]? = some msgs) :
    ((∃ a ∈ u, endsLink bg l a) → msgs = []) ∧
    ((∀ a ∈ u, ¬ endsLink bg l a) → (msgs.map (·.topic)).Nodup ∧
      ∀ m, m ∈ msgs ↔ PubSub.Matches (PubSub.split p) (PubSub.split m.topic) ∧
        ∃ k, PubSub.kept env.dflt (PubSub.baseOf db t0 u0) m.topic (hubOps env bg 0 u) = some k ∧ k.live now = true ∧ m.payload = k.data) := by
  have h0 : (part e0).steps = 0 := by rw [hb]
  rw [List.getElem?_map, chunks_at env bg (part e0) hs, h0] at hm
  injection hm with hm
  have hor := h.before
  rw [hs] at hor hpa hpl
  have hcon : PubSub.connects (hubOps env bg 0 (acts tr)) = List.range n := h.range
  rw [hs, hubOps_append, PubSub.connects_append] at hcon
  have hnd : (PubSub.connects (hubOps env bg 0 u)).Nodup := (List.nodup_append.mp (hcon ▸ List.nodup_range)).1
  have hst : (hubRun env (part e0) (hubOps env bg 0 u)).st = (PubSub.run env.dflt (PubSub.boot db t0 u0) (hubOps env bg 0 u)).1 := by
    rw [hubRun_st, hb]
  have hup := up_iff (env := env) (l := l) hnd hor.left
  have hmsgs : msgs = sentTo l (PubSub.answer env.dflt (PubSub.boot db t0 u0) (hubOps env bg 0 u)
      (.subscribe l p (env.order (hubRun env (part e0) (hubOps env bg 0 u)).steps) now)).sent := by
    rw [← hm]; simp only [chunk, hubOp, hubCall, hst]; rfl
  constructor
  · rintro ⟨a, ha, hae⟩
    rw [hmsgs]
    apply sentTo_nil
    intro m hm'
    have hreach := sent_reaches hm'
    have hi := PubSub.SubInv.of_run (dflt := env.dflt) (db := db) (t0 := t0) (u0 := u0) (hubOps env bg 0 u) hnd
    rw [hi.reaches_iff] at hreach
    exact (hup.mp hreach).2 a ha hae
  · intro hne
    have hc : PubSub.connected l (hubOps env bg 0 u) = true := hup.mpr ⟨hor u _ v l rfl (.inl ⟨_, _, _, rfl⟩), hne⟩
    have hvalid : PubSub.Valid t0 (hubOps env bg 0 u ++ [.subscribe l p (env.order (hubRun env (part e0) (hubOps env bg 0 u)).steps) now]) := by
      refine ⟨by rw [PubSub.connects_append]; simpa [PubSub.connects] using hnd, ?_⟩
      refine List.Pairwise.sublist ?_ hck
      refine List.Sublist.cons_cons _ ?_
      rw [times_append, hs, List.flatMap_append, List.flatMap_cons]
      refine List.Sublist.append (times_sublist hp.tasks u 0) ?_
      simp [PubSub.times, readings]
    have hplain : PubSub.PlainTopics db (hubOps env bg 0 u) := by
      refine ⟨hrows, ?_⟩
      intro topic data ttl now' un hmem
      have key : ∀ (A : List (Act I)) (k : Nat), PlainActs A → PubSub.Op.publish topic data true ttl now' un ∈ hubOps env bg k A →
          PubSub.plainTopic topic = true := by
        intro A
        induction A with
        | nil => intro k _ h; cases h
        | cons a A ih =>
          intro k hA hmem
          simp only [hubOps] at hmem
          rcases List.mem_append.mp hmem with hmem | hmem
          · cases a with
            | did c cmd nw rr =>
              have hcall : hubCall env k c nw cmd = some (.publish topic data true ttl now' un) := by simpa [hubOp] using hmem
              cases cmd with
              | publish t opts pl =>
                simp only [hubCall] at hcall
                injection hcall with hcall
                injection hcall with e1 e2 e3
                subst e1
                have hret : opts.retain = some true := by
                  cases hh : opts.retain with
                  | none => rw [hh] at e3; cases e3
                  | some b => rw [hh] at e3; simp at e3; rw [e3]
                have := hA c t opts pl nw rr (List.mem_cons_self ..) hret
                simp [PubSub.plainTopic, this]
              | subscribe p' => cases hcall
              | unsubscribe p' => cases hcall
              | _ => cases hcall
            | ticked x =>
              have hx : bg x = some (.publish topic data true ttl now' un) := by simpa [hubOp] using hmem
              have := hp.tasks x _ hx
              cases this
          · exact ih _ (fun c t o pl nw rr hm => hA c t o pl nw rr (List.mem_cons_of_mem _ hm)) hmem
      exact key u 0 (fun c t o pl nw rr hm => hpl c t o pl nw rr (List.mem_append.mpr (.inl hm))) hmem
    have hproper : PubSub.hashLast (PubSub.split p) = true := hpa l p now r (.inl (by simp))
    have hC := PubSub.C18_retained_partial env.dflt db hdb t0 u0 (hubOps env bg 0 u) l p
      (env.order (hubRun env (part e0) (hubOps env bg 0 u)).steps) now hvalid hplain hproper hc
    obtain ⟨hC1, hC2⟩ := hC
    generalize hout : PubSub.answer env.dflt (PubSub.boot db t0 u0) (hubOps env bg 0 u)
      (.subscribe l p (env.order (hubRun env (part e0) (hubOps env bg 0 u)).steps) now) = out at hC1 hC2 hmsgs
    have hall : ∀ (s : List (Nat × PubSub.Msg)), (∀ c m, (c, m) ∈ s → c = l) → sentTo l s = s.map (·.2) := by
      intro s
      induction s with
      | nil => intro _; rfl
      | cons x s ih =>
        intro hx
        have := hx x.1 x.2 (List.mem_cons_self ..)
        simp only [sentTo, List.filterMap_cons, if_pos this, List.map_cons]
        exact congrArg _ (ih (fun c m hm => hx c m (List.mem_cons_of_mem _ hm)))
    have hmine : ∀ c m, (c, m) ∈ out.sent → c = l := fun c m hm => ((hC2 c m).mp hm).1
    rw [hall out.sent hmine] at hmsgs
    subst hmsgs
    constructor
    · rw [List.map_map]; exact hC1
    · intro m
      have hmem : m ∈ out.sent.map (·.2) ↔ (l, m) ∈ out.sent := by
        constructor
        · intro hm'
          obtain ⟨⟨c, m'⟩, h1, rfl⟩ := List.mem_map.mp hm'
          rw [← hmine c m' h1]; exact h1
        · intro hm'; exact List.mem_map.mpr ⟨_, hm', rfl⟩
      rw [hmem]
      exact (hC2 l m).trans ⟨fun ⟨_, h1, h2⟩ => ⟨h1, h2⟩, fun ⟨h1, h2⟩ => ⟨rfl, h1, h2⟩⟩

theorem greeted (hp : PubPart srv env part bg desk) {t0 u0 : Nat} (hb : part e0 = { st := PubSub.boot [] t0 u0 })
    {w : World E} {tr : List (Obs I)} {arr : List (Nat × Bytes)} {sent : List (Nat × PubSub.Msg)} {n : Nat}
    (h : Ready pr srv env bg e0 w tr arr sent n) (hpa : ProperActs (acts tr)) (hck : ClockActs bg t0 (acts tr)) (hpl : PlainActs (acts tr)) (l : Nat) :
    Greeted env.dflt bg l (acts tr) ((chunks env bg (part e0) (acts tr)).map (sentTo l)) := by
  intro u p now r v hs msgs hm
  obtain ⟨g1, g2⟩ := greeted_kept hp (by simp) (by intro r h; cases h) hb h hpa hck hpl l hs hm
  refine ⟨g1, fun hne => ⟨(g2 hne).1, fun m => ((g2 hne).2 m).trans ?_⟩⟩
  have hans : Answered env u := by have := answered hp hb h.facts; rw [hs] at this; exact this.left
  obtain ⟨k1, k2⟩ := held_iff (bg := bg) hp.tasks (t0 := t0) (u0 := u0) hans m.topic
  constructor
  · rintro ⟨h1, k, h2, h3, h4⟩
    obtain ⟨till, ht⟩ := k1 k h2
    refine ⟨h1, till, (k2 m.payload till).mp ⟨k.untilUnix, ?_⟩, ?_⟩
    · rw [h2, h4, ← ht]
    · simpa [PubSub.Kept.live, ht] using h3
  · rintro ⟨h1, till, h2, h3⟩
    obtain ⟨un, h4⟩ := (k2 m.payload till).mpr h2
    exact ⟨h1, _, h4, by simp [PubSub.Kept.live, h3], rfl⟩

end

end Verif.Rpc
