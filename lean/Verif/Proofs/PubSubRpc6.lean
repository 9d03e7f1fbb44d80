import Verif.Proofs.PubSubRpc5
import Verif.Props.PubSub

/-!
# Lemmas about publish/subscribe behind the network: what the broker says to a connection
-/

namespace Verif.Rpc

open Verif Verif.Wire Verif.Sdk

variable {E I : Type}

section
variable (env : HubEnv) (bg : I → Option PubSub.Op)

/-- What an act sends. -/
def chunk (h : Hub) (a : Act I) : List (Nat × PubSub.Msg) :=
  match hubOp env bg h.steps a with
  | none => []
  | some op => (PubSub.step env.dflt h.st op).2.sent

def chunks (h : Hub) : List (Act I) → List (List (Nat × PubSub.Msg))
  | [] => []
  | a :: t => chunk env bg h a :: chunks (hubRun env h (hubOp env bg h.steps a).toList) t

theorem chunks_length (h : Hub) (A : List (Act I)) : (chunks env bg h A).length = A.length := by
  induction A generalizing h with
  | nil => rfl
  | cons a t ih => simp [chunks, ih]

theorem chunk_sent (h : Hub) (a : Act I) : (hubRun env h (hubOp env bg h.steps a).toList).sent = h.sent ++ chunk env bg h a := by
  unfold chunk
  cases hubOp env bg h.steps a with
  | none => simp [hubRun]
  | some op => rfl

theorem chunks_sent (h : Hub) (A : List (Act I)) : (hubRun env h (hubOps env bg h.steps A)).sent = h.sent ++ (chunks env bg h A).flatten := by
  induction A generalizing h with
  | nil => simp [hubOps, hubRun, chunks]
  | cons a t ih =>
    simp only [hubOps, hubRun_append, chunks, List.flatten_cons]
    have e : (hubRun env h (hubOp env bg h.steps a).toList).steps = h.steps + (hubOp env bg h.steps a).toList.length := hubRun_steps ..
    rw [← e, ih, chunk_sent, List.append_assoc]

theorem chunks_at (h : Hub) {A u w : List (Act I)} {a : Act I} (hs : A = u ++ a :: w) :
    (chunks env bg h A)[u.length]? = some (chunk env bg (hubRun env h (hubOps env bg h.steps u)) a) := by
  subst hs
  induction u generalizing h with
  | nil => rfl
  | cons x u ih =>
    have e : (hubRun env h (hubOp env bg h.steps x).toList).steps = h.steps + (hubOp env bg h.steps x).toList.length := hubRun_steps ..
    simp only [List.cons_append, chunks, List.length_cons, List.getElem?_cons_succ, hubOps, hubRun_append]
    rw [ih, e]

end

theorem sentTo_flatten (l : Nat) (xs : List (List (Nat × PubSub.Msg))) : sentTo l xs.flatten = (xs.map (sentTo l)).flatten := by
  induction xs with
  | nil => rfl
  | cons x t ih => rw [List.flatten_cons, sentTo_append, ih]; rfl

theorem sentTo_eq (l : Nat) (s : List (Nat × PubSub.Msg)) : sentTo l s = PubSub.E2E.toConn (some l) s := by
  unfold sentTo PubSub.E2E.toConn
  congr 1
  funext e
  by_cases h : e.1 = l
  · simp [h]
  · simp [h, Ne.symm h]

theorem hubOps_proper {env : HubEnv} {bg : I → Option PubSub.Op} (htasks : ∀ x op, bg x = some op → ofHub op = true) {A : List (Act I)}
    (hA : ProperActs A) (k : Nat) : ∀ o ∈ hubOps env bg k A, o.proper = true := by
  induction A generalizing k with
  | nil => intro o h; cases h
  | cons a A ih =>
    intro o ho
    simp only [hubOps] at ho
    rcases List.mem_append.mp ho with ho | ho
    · cases a with
      | did l cmd now r =>
        have hc : hubCall env k l now cmd = some o := by simpa [hubOp] using ho
        cases cmd <;> simp only [hubCall, reduceCtorEq] at hc
        all_goals (injection hc with hc; subst hc)
        · rfl
        · exact hA l _ now r (.inl (List.mem_cons_self ..))
        · exact hA l _ now r (.inr (List.mem_cons_self ..))
      | ticked x =>
        have hc : bg x = some o := by simpa [hubOp] using ho
        have := htasks x o hc
        cases o <;> first | rfl | cases this
    · exact ih (fun l p now r h => hA l p now r (h.elim (fun h => .inl (List.mem_cons_of_mem _ h)) (fun h => .inr (List.mem_cons_of_mem _ h)))) _ o ho

theorem ProperActs.left {a b : List (Act I)} (h : ProperActs (a ++ b)) : ProperActs a :=
  fun l p now r hm => h l p now r (hm.elim (fun h => .inl (List.mem_append.mpr (.inl h))) (fun h => .inr (List.mem_append.mpr (.inl h))))

section
variable {pr : Printer} {srv : Server E I} {env : HubEnv} {part : E → Hub} {bg : I → Option PubSub.Op} {desk : Desk I} {e0 : E}

/-- The answer to a command is the broker's. -/
theorem hub_answer (hp : PubPart srv env part bg desk) (h0 : (part e0).steps = 0) {w : World E} {tr : List (Obs I)} (hf : Facts pr srv e0 w tr)
    {u v : List (Act I)} {l now : Nat} {cmd : Cmd} {r : Option Response} (hs : acts tr = u ++ .did l cmd now r :: v) (hq : isPubSub cmd = true) :
    r = (hubExec env l now cmd (hubRun env (part e0) (hubOps env bg 0 u))).2 := by
  obtain ⟨x, o, y, h1, h2, h3, h4⟩ := acts_split hs
  cases o with
  | executed l' f now' r' =>
    simp only [actOf] at h3
    obtain ⟨cmd', hc, he⟩ := Option.map_eq_some_iff.1 h3
    injection he with e1 e2 e3 e4
    subst e1 e2 e3 e4
    obtain ⟨cmd'', k1, _, k3⟩ := hf.shown x _ y h1
    rw [hc] at k1
    injection k1 with k1
    subst k1
    have this : (srv.exec l' now' cmd' (state srv e0 x)).2 = (hubExec env l' now' cmd' (part (state srv e0 x))).2 :=
      congrArg Prod.snd (hp.exec l' now' cmd' (state srv e0 x) hq)
    rw [k3, this, hub_state hp h0, h2]
  | ticked x' => simp [actOf] at h3
  | _ => simp [actOf] at h3

/-- What the broker says to a connection, act by act. -/
theorem says (hp : PubPart srv env part bg desk) {db : List PubSub.Row} {t0 u0 : Nat} (hb : part e0 = { st := PubSub.boot db t0 u0 })
    {w : World E} {tr : List (Obs I)} {arr : List (Nat × Bytes)} {sent : List (Nat × PubSub.Msg)} {n : Nat}
    (h : Ready pr srv env bg e0 w tr arr sent n) (hpa : ProperActs (acts tr)) (l : Nat)
    {u v : List (Act I)} {a : Act I} (hs : acts tr = u ++ a :: v) :
    Says bg l u a (sentTo l (chunk env bg (hubRun env (part e0) (hubOps env bg 0 u)) a)) := by
  have h0 : (part e0).steps = 0 := by rw [hb]
  have hor := h.before
  rw [hs] at hor hpa
  have hnd : (PubSub.connects (hubOps env bg 0 u)).Nodup := by
    have := h.range
    rw [hs, hubOps_append, PubSub.connects_append] at this
    exact (List.nodup_append.mp (this ▸ List.nodup_range)).1
  have hst : (hubRun env (part e0) (hubOps env bg 0 u)).st = (PubSub.run env.dflt (PubSub.boot db t0 u0) (hubOps env bg 0 u)).1 := by
    rw [hubRun_st, hb]
  have hsteps : (hubRun env (part e0) (hubOps env bg 0 u)).steps = (hubOps env bg 0 u).length := by
    rw [hubRun_steps, h0, Nat.zero_add]
  have hlis : ∀ topic, (∃ p, PubSub.subscribed l p (hubOps env bg 0 u) = true ∧ PubSub.Matches (PubSub.split p) (PubSub.split topic)) ↔
      Listens bg l topic u := by
    intro topic
    constructor
    · rintro ⟨p, h1, h2⟩; exact ⟨p, (tuned_iff hnd hor.left hp.tasks).mp h1, h2⟩
    · rintro ⟨p, h1, h2⟩; exact ⟨p, (tuned_iff hnd hor.left hp.tasks).mpr h1, h2⟩
  refine ⟨?_, ?_, ?_⟩
  · rintro c topic opts payload now rfl
    have hr := hub_answer hp h0 h.facts hs rfl
    simp only [hubExec, hubCall, hst, PubSub.step] at hr
    simp only [chunk, hubOp, hubCall, hst, sentTo_eq]
    have hroute : PubSub.reachesRouting env.dflt payload (opts.retain.getD false) (some (opts.ttl.getD env.dflt)) now = true := by
      cases hx : PubSub.reachesRouting env.dflt payload (opts.retain.getD false) (some (opts.ttl.getD env.dflt)) now with
      | true => rfl
      | false => rw [PubSub.publish_panics hx] at hr; cases hr
    have hrep : opts.retain.getD false = true → payload ≠ [] → PubSub.representable now ((some (opts.ttl.getD env.dflt)).getD env.dflt) = true := by
      intro h1 h2
      simp only [PubSub.reachesRouting, h1, Bool.not_true, Bool.false_or, Bool.or_eq_true] at hroute
      rcases hroute with hx | hx
      · exact absurd (List.isEmpty_iff.mp hx) h2
      · exact hx
    have hre := PubSub.C13_publish env.dflt db t0 u0 (hubOps env bg 0 u) hnd (hubOps_proper hp.tasks hpa.left 0) topic payload
      (opts.retain.getD false) (some (opts.ttl.getD env.dflt)) now (env.unix (hubRun env (part e0) (hubOps env bg 0 u)).steps) hrep l
    have hone := (PubSub.C14_one_copy env.dflt db t0 u0 (hubOps env bg 0 u) topic payload (opts.retain.getD false)
      (some (opts.ttl.getD env.dflt)) now (env.unix (hubRun env (part e0) (hubOps env bg 0 u)).steps)).1
    constructor
    · intro hl
      obtain ⟨p, hp1, hp2⟩ := (hlis topic).mpr hl
      exact PubSub.E2E.toConn_one hone ((hre ⟨topic, payload⟩).mpr ⟨rfl, PubSub.subscribed_connected hp1, p, hp1, hp2⟩)
    · intro hl
      apply PubSub.E2E.toConn_none
      intro m hm
      obtain ⟨_, _, hx⟩ := (hre m).mp hm
      exact hl ((hlis topic).mp hx)
  · rintro c topic opts payload now rfl
    have hr := hub_answer hp h0 h.facts hs rfl
    simp only [hubExec, hubCall, hst, PubSub.step] at hr
    simp only [chunk, hubOp, hubCall, hst, PubSub.step]
    cases hx : PubSub.reachesRouting env.dflt payload (opts.retain.getD false) (some (opts.ttl.getD env.dflt)) now with
    | true =>
      obtain ⟨s', h1, _, _⟩ := PubSub.publish_eq (s := (PubSub.run env.dflt (PubSub.boot db t0 u0) (hubOps env bg 0 u)).1) (topic := topic)
        (unixNow := env.unix (hubRun env (part e0) (hubOps env bg 0 u)).steps) hx
      rw [h1] at hr
      simp [PubSub.deliver] at hr
    | false => rw [PubSub.publish_panics hx]; rfl
  · intro h1 h2
    cases a with
    | did c cmd now r =>
      cases cmd with
      | publish topic opts payload => exact absurd rfl (h1 c topic opts payload now r)
      | subscribe p =>
        have hc : c ≠ l := by rintro rfl; exact h2 p now r rfl
        apply sentTo_nil
        intro m hm
        simp only [chunk, hubOp, hubCall, PubSub.step, PubSub.subscribe] at hm
        split at hm
        · cases hm
        · dsimp only at hm
          split at hm
          · obtain ⟨m', _, he⟩ := List.mem_map.mp hm
            injection he with he _
            exact hc he
          · cases hm
      | unsubscribe p => rfl
      | _ => rfl
    | ticked x =>
      simp only [chunk, hubOp]
      cases hx : bg x with
      | none => rfl
      | some op =>
        have := hp.tasks x op hx
        cases op with
        | flush now ok => simp only [PubSub.step]; split <;> rfl
        | connect | drop | disconnect | cleanup => rfl
        | _ => cases this

/-- What the broker has sent to a connection. -/
theorem hub_said (hp : PubPart srv env part bg desk) {db : List PubSub.Row} {t0 u0 : Nat} (hb : part e0 = { st := PubSub.boot db t0 u0 })
    {w : World E} {tr : List (Obs I)} (hf : Facts pr srv e0 w tr) (l : Nat) :
    sentTo l (part w.engine).sent = ((chunks env bg (part e0) (acts tr)).map (sentTo l)).flatten := by
  have h0 : (part e0).steps = 0 := by rw [hb]
  rw [hf.engine, hub_state hp h0, ← sentTo_flatten]
  have := chunks_sent env bg (part e0) (acts tr)
  rw [h0] at this
  rw [this, hb]; rfl

theorem script (hp : PubPart srv env part bg desk) {db : List PubSub.Row} {t0 u0 : Nat} (hb : part e0 = { st := PubSub.boot db t0 u0 })
    {w : World E} {tr : List (Obs I)} {arr : List (Nat × Bytes)} {sent : List (Nat × PubSub.Msg)} {n : Nat}
    (h : Ready pr srv env bg e0 w tr arr sent n) (hpa : ProperActs (acts tr)) (l : Nat) :
    Script bg l (acts tr) ((chunks env bg (part e0) (acts tr)).map (sentTo l)) := by
  have h0 : (part e0).steps = 0 := by rw [hb]
  refine ⟨by rw [List.length_map, chunks_length], ?_⟩
  intro u a v hs msgs hm
  rw [List.getElem?_map, chunks_at env bg (part e0) hs, h0] at hm
  injection hm with hm
  rw [← hm]
  exact says hp hb h hpa l hs

/-! ### What the client reads -/

theorem readPush_packet {m : PubSub.Msg} (h : (packetOf m).length < 2 ^ 32) : readPush (packetOf m) = m := by
  have hb : ∀ n, (be32 n).length = 4 := fun n => by simp [be32]
  simp only [packetOf, wirePush, List.length_append, hb] at h
  unfold readPush packetOf wirePush
  have e1 : (be32 m.topic.length ++ m.topic ++ m.payload).take 4 = be32 m.topic.length := by
    rw [List.append_assoc, List.take_append_of_le_length (by rw [hb]; exact Nat.le_refl _), List.take_of_length_le (by rw [hb]; exact Nat.le_refl _)]
  have e2 : (be32 m.topic.length ++ m.topic ++ m.payload).drop 4 = m.topic ++ m.payload := by
    rw [List.append_assoc]
    exact List.drop_left' (hb _)
  simp only [e1, e2, beVal_be32_lt (show m.topic.length < 2 ^ 32 by omega)]
  rw [← List.drop_drop, e2, List.take_left, List.drop_left]

theorem arrivedOver_eq (l : Nat) (arr : List (Nat × Bytes)) : arrivedOver l arr = (readOn l arr).map readPush := by
  unfold arrivedOver readOn
  rw [List.map_filterMap]
  congr 1
  funext e
  by_cases h : e.1 = l <;> simp [h]

theorem pushedOn_mem {l : Nat} {tr : List (Obs I)} {b : Bytes} (h : b ∈ pushedOn l tr) : Obs.pushed l b ∈ tr := by
  unfold pushedOn at h
  obtain ⟨o, ho, hx⟩ := List.mem_filterMap.mp h
  cases o with
  | pushed l' b' =>
    simp only at hx
    split at hx
    · next hl => injection hx with hx; subst hl hx; exact ho
    · cases hx
  | _ => cases hx

/-- Packets that were handed over are read as the messages they are made of. -/
theorem read_back {l : Nat} {tr : List (Obs I)} (ho : Ordinary pr srv tr) {msgs : List PubSub.Msg} {bs : List Bytes}
    (hp : pushedOn l tr <+: msgs.map packetOf) (hb : bs <+: pushedOn l tr) : bs.map readPush <+: msgs := by
  obtain ⟨t, ht⟩ := hp
  obtain ⟨t', ht'⟩ := hb
  rw [← ht', List.append_assoc] at ht
  obtain ⟨m1, m2, rfl, h1, h2⟩ := List.map_eq_append_iff.mp ht.symm
  refine ⟨m2, ?_⟩
  rw [← h1, List.map_map]
  congr 1
  conv => rhs; rw [← List.map_id m1]
  apply List.map_congr_left
  intro m hm
  apply readPush_packet
  apply ho.pushes l
  apply pushedOn_mem
  rw [← ht', ← h1]
  exact List.mem_append.mpr (.inl (List.mem_map.mpr ⟨m, hm, rfl⟩))

/-- What arrives is a beginning of what was sent. -/
theorem arrived_prefix {w : World E} {tr : List (Obs I)} {arr : List (Nat × Bytes)} {sent : List (Nat × PubSub.Msg)} {n : Nat}
    (h : Ready pr srv env bg e0 w tr arr sent n) (ho : Ordinary pr srv tr) (l : Nat) : arrivedOver l arr <+: sentTo l sent := by
  rw [arrivedOver_eq]
  refine read_back ho (h.pre l) ?_
  rcases Nat.lt_or_ge l w.made with hl | hl
  · rw [← h.fed.chan l hl]
    exact (h.fed.past l hl).trans (List.prefix_append _ _)
  · rw [(h.fed.unmade l hl).2]; exact List.nil_prefix

end

end Verif.Rpc
