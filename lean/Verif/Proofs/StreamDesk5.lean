import Verif.Proofs.StreamDesk4

/-!
# Lemmas about streams as one sequential object: every act is a step of the specification
-/

namespace Verif.Rpc

open Verif Verif.Wire Verif.Sdk
open Verif.Stream (Topic GErr Query Msg FetchOp SCmd View Rel GRel Fate)

variable {E I : Type} {env : Env} {bg : I → Option (Str × Stream.Ev)}

/-- The act is a step of the specification, and the books are right afterwards. -/
def Goes (env : Env) (bg : I → Option (Str × Stream.Ev)) (w : List (Act I)) (D : Library) (a : Act I) : Prop :=
  ∃ D', LStep env bg D a D' ∧ ∀ m, Fit env bg (w ++ [a]) D' m

section

variable {A w z u v : List (Act I)} {n : Str} {o : StreamOpts} {D : Library} {L : Ledger} {l now : Nat} {cmd : Cmd} {r : Option Response}

/-- A command on a topic that is there. -/
theorem goes_on (hf : ∀ m, Fit env bg w D m) (hn : onTopic cmd = some n) (hb : Born env bg n w u o v) {D' : Library} {L' : Ledger}
    (hst : LStep env bg D (.did l cmd now r) D') (h1 : D' n = some L') (h2 : ∀ m, m ≠ n → D' m = D m)
    (hw : Written env o (hist env bg n u o v ++
      streamSteps env (w.countP isStreamAct) l now ((newTopic env o).run env.crc (hist env bg n u o v)) cmd) L') :
    Goes env bg w D (.did l cmd now r) := by
  have nd : ∀ m, ¬ dropsTopic m (.did l cmd now r : Act I) := by
    rintro m ⟨_, _, _, he⟩
    injection he with _ he
    subst he
    cases hn
  refine ⟨D', hst, fun m => ?_⟩
  by_cases hm : m = n
  · subst hm
    refine Fit.go hb h1 (nd m) ?_
    simpa only [actSteps, hn, if_true] using hw
  · refine (hf m).frame (h2 m hm) (fun t _ => act_other (by rw [hn]; simpa using Ne.symm hm)) (nd m) ?_
    intro _ l' o' now' r' he
    injection he with _ he
    subst he
    cases hn

/-- The topic stays as it was in the books. -/
theorem goes_same (hf : ∀ m, Fit env bg w D m) (hn : onTopic cmd = some n) (hb : Born env bg n w u o v) (hL : D n = some L)
    (hst : LStep env bg D (.did l cmd now r) D)
    (hw : Written env o (hist env bg n u o v ++
      streamSteps env (w.countP isStreamAct) l now ((newTopic env o).run env.crc (hist env bg n u o v)) cmd) L) :
    Goes env bg w D (.did l cmd now r) := goes_on hf hn hb hst hL (fun _ _ => rfl) hw

/-- The books of the topic change. -/
theorem goes_new (hf : ∀ m, Fit env bg w D m) (hn : onTopic cmd = some n) (hb : Born env bg n w u o v) {L' : Ledger}
    (hst : LStep env bg D (.did l cmd now r) (D.set n (some L')))
    (hw : Written env o (hist env bg n u o v ++
      streamSteps env (w.countP isStreamAct) l now ((newTopic env o).run env.crc (hist env bg n u o v)) cmd) L') :
    Goes env bg w D (.did l cmd now r) := goes_on hf hn hb hst (lib_same D n _) (fun _ hm => lib_other D _ hm) hw

theorem on_some {L : Ledger} {g : Str} {f : Crew → Crew} {C : Crew} (h : L.crews g = some C) : L.on g f = L.set g (f C) := by
  unfold Ledger.on; rw [h]

/-! ### The commands on a topic -/

theorem Streamed.goes_pub {pl : Bytes} (ht : Streamed env bg A) (hs : A = w ++ .did l (.sPub n pl) now r :: z) (hf : ∀ m, Fit env bg w D m)
    (hL : D n = some L) (hb : Born env bg n w u o v) (hw : Written env o (hist env bg n u o v) L) : Goes env bg w D (.did l (.sPub n pl) now r) := by
  have hr := ht.answer hs rfl rfl hb
  obtain ⟨J, h1, _, _⟩ := ht.rel ⟨_, hs.symm⟩ hb []
  have hnext := (hw.agree []).next
  rw [h1.next] at hnext
  simp only [streamAnswer, hnext] at hr
  subst hr
  exact goes_new hf rfl hb (.publish l now n pl L hL) (hw.step _)

theorem Streamed.goes_seek {g : Str} {b : Bool} (ht : Streamed env bg A) (hs : A = w ++ .did l (.sSeek n g b) now r :: z) (hf : ∀ m, Fit env bg w D m)
    (hL : D n = some L) (hb : Born env bg n w u o v) (hw : Written env o (hist env bg n u o v) L) : Goes env bg w D (.did l (.sSeek n g b) now r) := by
  have hr := ht.answer hs rfl rfl hb
  simp only [streamAnswer] at hr
  subst hr
  exact goes_new hf rfl hb (.seek l now n g b L hL) (hw.step _)

theorem Streamed.goes_ack {g c : Str} {gen s : Nat} (ht : Streamed env bg A) (hs : A = w ++ .did l (.sAck n g c gen s) now r :: z)
    (hf : ∀ m, Fit env bg w D m) (hL : D n = some L) (hb : Born env bg n w u o v) (hw : Written env o (hist env bg n u o v) L) :
    Goes env bg w D (.did l (.sAck n g c gen s) now r) := by
  have hr := ht.answer hs rfl rfl hb
  obtain ⟨J, h1, _, _⟩ := ht.rel ⟨_, hs.symm⟩ hb g
  have hag := hw.agree g
  have hst := hw.step (.ack g c gen s)
  have hans := ack_answer h1 c gen s
  have same := fun (k : LStep env bg D (.did l (.sAck n g c gen s) now r) D) => goes_same (cmd := .sAck n g c gen s) hf rfl hb hL k
  have new := fun (L' : Ledger) (k : LStep env bg D (.did l (.sAck n g c gen s) now r) (D.set n (some L'))) =>
    goes_new (cmd := .sAck n g c gen s) hf rfl hb k
  simp only [streamAnswer, streamSteps, Outs, Topic.step] at hr hst same new
  generalize ((newTopic env o).run env.crc (hist env bg n u o v)).ack g c gen s = x at hr hst hans
  generalize Stream.viewAfter env.crc (newTopic env o) g (hist env bg n u o v) = vw at hag hans
  obtain ⟨t', out⟩ := x
  dsimp only at hr hst hans
  rcases hans with ⟨e, rfl, he, hre⟩ | ⟨hk, rfl, hm, hans⟩
  · refine same ?_ hst
    subst hr
    rcases he with rfl | rfl | rfl
    · exact .ackUnknown l now n g c gen s L hL (hag.unknown (hre.unknown rfl))
    · obtain ⟨h2, h3⟩ := hre.fenced rfl
      exact .ackFenced l now n g c gen s L _ hL (hag.known h2) h3
    · obtain ⟨h2, rfl, h4⟩ := hre.stranger rfl
      exact .ackStranger l now n g c s L _ hL (hag.known h2) h4
  · have hC := hag.known hk
    rcases hans with ⟨rfl, hx⟩ | ⟨rfl, c', at_, k, hx, hne⟩ | ⟨rfl, at_, k, hx⟩
    · refine same ?_ hst
      have : r = err ("seq " ++ toString s ++ " not pending") := by
        rw [hr]
        simp only [err, errorText, ascii_append]
      rw [this]
      exact .ackIdle l now n g c s L _ hL hC hm hx
    · refine same ?_ hst
      subst hr
      exact .ackOther l now n g c s L _ c' at_ k hL hC hm hx hne
    · have hst' : Written env o (hist env bg n u o v ++ [.ack g c vw.gen s]) (L.on g (fun C => C.sees env (.acked s))) := hst
      rw [on_some hC] at hst'
      refine new _ ?_ hst'
      subst hr
      exact .ack l now n g c s L _ at_ k hL hC hm hx

theorem Streamed.goes_leave {g c : Str} {gen : Nat} (ht : Streamed env bg A) (hs : A = w ++ .did l (.sLeave n g c gen) now r :: z)
    (hf : ∀ m, Fit env bg w D m) (hL : D n = some L) (hb : Born env bg n w u o v) (hw : Written env o (hist env bg n u o v) L) :
    Goes env bg w D (.did l (.sLeave n g c gen) now r) := by
  have hr := ht.answer hs rfl rfl hb
  obtain ⟨J, h1, _, _⟩ := ht.rel ⟨_, hs.symm⟩ hb g
  have hag := hw.agree g
  have hst := hw.step (.leave g c gen (env.order (w.countP isStreamAct)))
  have hans := leave_answer h1 c gen (env.order (w.countP isStreamAct))
  have same := fun (k : LStep env bg D (.did l (.sLeave n g c gen) now r) D) => goes_same (cmd := .sLeave n g c gen) hf rfl hb hL k
  have new := fun (L' : Ledger) (k : LStep env bg D (.did l (.sLeave n g c gen) now r) (D.set n (some L'))) =>
    goes_new (cmd := .sLeave n g c gen) hf rfl hb k
  simp only [streamAnswer, streamSteps, Outs, Topic.step] at hr hst same new
  generalize ((newTopic env o).run env.crc (hist env bg n u o v)).leave g c gen (env.order (w.countP isStreamAct)) = x at hr hst hans
  generalize Stream.viewAfter env.crc (newTopic env o) g (hist env bg n u o v) = vw at hag hans
  obtain ⟨t', out⟩ := x
  dsimp only at hr hst hans
  rcases hans with ⟨e, rfl, he, hre⟩ | ⟨rfl, hk, rfl, hm⟩
  · refine same ?_ hst
    subst hr
    rcases he with rfl | rfl | rfl
    · exact .leaveUnknown l now n g c gen L hL (hag.unknown (hre.unknown rfl))
    · obtain ⟨h2, h3⟩ := hre.fenced rfl
      exact .leaveFenced l now n g c gen L _ hL (hag.known h2) h3
    · obtain ⟨h2, rfl, h4⟩ := hre.stranger rfl
      exact .leaveStranger l now n g c L _ hL (hag.known h2) h4
  · have hC := hag.known hk
    have hst' : Written env o (hist env bg n u o v ++ [.leave g c vw.gen (env.order (w.countP isStreamAct))]) (L.on g (fun C =>
      { C.sees env (.left (fun id => decide (id = c))) with members := C.members.filter (fun m => m.1 ≠ c) })) := hst
    rw [on_some hC] at hst'
    refine new _ ?_ hst'
    subst hr
    exact .leave l now n g c L _ hL hC hm

theorem Streamed.goes_join {g : Str} (ht : Streamed env bg A) (hs : A = w ++ .did l (.sJoin g n) now r :: z)
    (hf : ∀ m, Fit env bg w D m) (hL : D n = some L) (hb : Born env bg n w u o v) (hw : Written env o (hist env bg n u o v) L) :
    Goes env bg w D (.did l (.sJoin g n) now r) := by
  have hr := ht.answer hs rfl rfl hb
  obtain ⟨J, h1, h2, h3⟩ := ht.rel ⟨_, hs.symm⟩ hb g
  have hag := hw.agree g
  -- the history with the join
  have hb' : Born env bg n (w ++ [.did l (.sJoin g n) now r]) u o (v ++ [.did l (.sJoin g n) now r]) :=
    hb.extend (fun x hx => by rw [List.mem_singleton] at hx; subst hx; rintro ⟨_, _, _, he⟩; cases he)
  have hnd := ht.nodup ⟨z, by rw [hs]; simp⟩ hb' g
  rw [hb.next] at hnd
  have hact : actSteps env bg n (w.countP isStreamAct) ((newTopic env o).run env.crc (hist env bg n u o v)) (.did l (.sJoin g n) now r) =
      [.join g (env.conn l) (env.consumer (w.countP isStreamAct))] := by simp [actSteps, onTopic, streamSteps]
  rw [hact] at hnd
  generalize hcid : env.consumer (w.countP isStreamAct) = c at hnd
  have hst := hw.step (.join g (env.conn l) c)
  have hag' := hst.agree g
  -- the answer
  have hfresh : ∀ cn, (c, cn) ∉ J := by
    intro cn hm
    rw [Stream.joinIds_append] at hnd
    exact (List.nodup_append.1 hnd).2.2 c (h3 c cn hm) c (by simp [Stream.joinIds]) rfl
  have hout : (((newTopic env o).run env.crc (hist env bg n u o v)).step env.crc (.join g (env.conn l) c)).2 =
      .joined ((((mget ((newTopic env o).run env.crc (hist env bg n u o v)).groups g).getD
        ((newTopic env o).run env.crc (hist env bg n u o v)).newGroup).clampHead ((newTopic env o).run env.crc (hist env bg n u o v)).log.head).1.addMember c
        (env.conn l)).floor c (L.crew g).gen := by
    simp only [Topic.step, Topic.join, Stream.Out.joined.injEq, true_and]
    rw [hag.gen]
    cases hg : mget ((newTopic env o).run env.crc (hist env bg n u o v)).groups g with
    | some gr =>
      have hgr := h1.grp gr hg
      have hcl := hgr.clamped
      rw [h1.head] at hcl
      simp only [Option.getD_some, hcl, Stream.Group.addMember]
      exact hgr.gen
    | none =>
      have := (h1.unk hg).1
      rw [this]
      have hcl := (Stream.newGroup_rel h2 h1.head (by rw [Stream.run_cfg]; exact ht.ok.deliveries) this (h1.unk hg).2).clamped
      have hh : (View.obs ((newTopic env o).run env.crc (hist env bg n u o v)).cfg.maxDeliveries ((newTopic env o).run env.crc (hist env bg n u o v)).cfg.ackWait
        (Stream.viewAfter env.crc (newTopic env o) g (hist env bg n u o v))
        [.restarted (Stream.viewAfter env.crc (newTopic env o) g (hist env bg n u o v)).head]).head =
          ((newTopic env o).run env.crc (hist env bg n u o v)).log.head := h1.head
      rw [hh] at hcl
      simp only [Option.getD_none, hcl, Stream.Group.addMember]
      rfl
  obtain ⟨hdone, hdue⟩ := Stream.join_progress (new_started ht.ok.deliveries o) g _ _ _ hnd _ _ _ hout
  simp only [streamAnswer, streamSteps, Outs, hcid, hout] at hr
  generalize (((mget ((newTopic env o).run env.crc (hist env bg n u o v)).groups g).getD
        ((newTopic env o).run env.crc (hist env bg n u o v)).newGroup).clampHead ((newTopic env o).run env.crc (hist env bg n u o v)).log.head).1.addMember c
        (env.conn l) = gr at hr hdone hdue
  have hfate : (Stream.viewAfter env.crc (newTopic env o) g (hist env bg n u o v ++ [.join g (env.conn l) c])).fate = (L.crew g).fate := by
    have := hag'.crew
    have hx : (L.note env (.join g (env.conn l) c, (((newTopic env o).run env.crc (hist env bg n u o v)).step env.crc (.join g (env.conn l) c)).2)).crews g =
        some { L.crew g with members := (c, env.conn l) :: (L.crew g).members } := by
      simp only [Ledger.note, set_same]
    rw [hx] at this
    have := this.2
    injection this with _ _ h
    exact h.symm
  rw [hfate] at hdone hdue
  refine goes_new hf rfl hb (L' := L.set g { L.crew g with members := (c, env.conn l) :: (L.crew g).members }) ?_ (by simp only [streamSteps, hcid]; exact hst)
  subst hr
  refine .join l now n g L c gr.floor hL ?_ hdone hdue
  rintro ⟨cn, hm⟩
  rw [hag.members] at hm
  exact hfresh cn (h1.stale c cn (h1.bind c cn hm))

theorem Streamed.goes_fetch {g c : Str} {gen lim wt : Nat} (ht : Streamed env bg A) (hs : A = w ++ .did l (.sFetch n g c gen lim wt) now r :: z)
    (hf : ∀ m, Fit env bg w D m) (hL : D n = some L) (hb : Born env bg n w u o v) (hw : Written env o (hist env bg n u o v) L) :
    Goes env bg w D (.did l (.sFetch n g c gen lim wt) now r) := by
  have hr := ht.answer hs rfl rfl hb
  have hal : Alive ((newTopic env o).run env.crc (hist env bg n u o v)) := Alive.run _ _ (Alive.fresh _ _)
  have hact : actSteps env bg n (w.countP isStreamAct) ((newTopic env o).run env.crc (hist env bg n u o v)) (.did l (.sFetch n g c gen lim wt) now r) =
      fetchSteps env (w.countP isStreamAct) now ⟨g, c, gen, lim⟩ (decide (wt ≠ 0)) ((newTopic env o).run env.crc (hist env bg n u o v)) := by
    simp [actSteps, onTopic, streamSteps]
  obtain ⟨pre, e, post, res, ha⟩ := fetch_answered env (w.countP isStreamAct) now ⟨g, c, gen, lim⟩ (decide (wt ≠ 0)) hal
  simp only [streamAnswer, streamSteps, ha.find, Option.map_some] at hr
  have hsplit := hact.trans ha.split
  have hev : ∀ x ∈ pre ++ e :: post, (∃ g c gen lim poll, x = .fetch g c gen lim poll) ∨ ∃ id now, Worker id now x := by
    intro x hx
    rw [← hsplit] at hx
    have := source hx
    cases this with
    | start => exact .inl ⟨_, _, _, _, _, rfl⟩
    | work _ _ _ _ _ _ _ _ id _ h => exact .inr ⟨id, _, h⟩
  have hpre := hw.quiet pre (fun x hx => hev x (by simp [hx])) ha.before
  have hstep := hpre.step e
  have hrun : ((newTopic env o).run env.crc (hist env bg n u o v)).run env.crc pre = (newTopic env o).run env.crc (hist env bg n u o v ++ pre) :=
    (Stream.run_append ..).symm
  have hout := ha.out
  rw [hrun] at hout
  rw [hout] at hstep
  have hnojoin : Stream.joinIds g (hist env bg n u o v ++ pre) = Stream.joinIds g (hist env bg n u o v) := by
    rw [Stream.joinIds_append]
    have : ∀ es : List Stream.Ev, (∀ x ∈ es, (∃ g c gen lim poll, x = .fetch g c gen lim poll) ∨ ∃ id now, Worker id now x) → Stream.joinIds g es = [] := by
      intro es
      induction es with
      | nil => intro _; rfl
      | cons x es ih =>
        intro h
        have := ih (fun y hy => h y (List.mem_cons_of_mem _ hy))
        rcases h x (List.mem_cons_self ..) with ⟨_, _, _, _, _, rfl⟩ | ⟨_, _, rfl | rfl | rfl | rfl⟩ <;> exact this
    rw [this pre (fun x hx => hev x (by simp [hx])), List.append_nil]
  have hnd := ht.nodup ⟨_, hs.symm⟩ hb g
  rw [← hnojoin] at hnd
  obtain ⟨J, h1, h2, h2c, h2d, h3⟩ := (new_started ht.ok.deliveries o).reach g (hist env bg n u o v ++ pre) hnd
  have heff := (new_started ht.ok.deliveries o).effect g (hist env bg n u o v ++ pre) e hnd
  have hag := hpre.agree g
  -- the rest of the steps
  have rest : ∀ L', Written env o ((hist env bg n u o v ++ pre) ++ [e]) L' → Written env o (hist env bg n u o v ++
      streamSteps env (w.countP isStreamAct) l now ((newTopic env o).run env.crc (hist env bg n u o v)) (.sFetch n g c gen lim wt)) L' := by
    intro L' h
    have hq := h.quiet post (fun x hx => hev x (by simp [hx])) (by
      have := ha.after
      rw [hrun] at this
      rw [Stream.run_append]
      exact this)
    have : streamSteps env (w.countP isStreamAct) l now ((newTopic env o).run env.crc (hist env bg n u o v)) (.sFetch n g c gen lim wt) = pre ++ e :: post := by
      rw [← hsplit, hact]; rfl
    rw [this]
    simpa using hq
  cases res with
  | error x =>
    have hno : L.note env (e, .fetched ⟨g, c, gen, lim⟩ (.error x)) = L := by
      rcases hev e (by simp) with ⟨_, _, _, _, _, rfl⟩ | ⟨_, _, rfl | rfl | rfl | rfl⟩ <;> rfl
    rw [hno] at hstep
    refine goes_same hf rfl hb hL ?_ (rest _ hstep)
    obtain ⟨hx, hre⟩ := fetch_reason h1 rfl hout
    subst hr
    rcases hx with rfl | rfl | rfl
    · exact .fetchUnknown l now n g c gen lim wt L hL (hag.unknown (hre.unknown rfl))
    · obtain ⟨k1, k2⟩ := hre.fenced rfl
      exact .fetchFenced l now n g c gen lim wt L _ hL (hag.known k1) k2
    · obtain ⟨k1, k2, k3⟩ := hre.stranger rfl
      dsimp only at k2
      subst k2
      exact .fetchStranger l now n g c lim wt L _ hL (hag.known k1) k3
  | ok ms =>
    obtain ⟨⟨l', wt', now', r', he, _, hread⟩, hpub⟩ := ht.wired hs hb hsplit hout
    injection he with _ _ _ he
    subst he
    have hknown : (Stream.viewAfter env.crc (newTopic env o) g (hist env bg n u o v ++ pre)).known = true := by
      rw [h1.known]
      have hal' : Alive ((newTopic env o).run env.crc (hist env bg n u o v ++ pre)) := Alive.run _ _ (Alive.fresh _ _)
      exact fetched_known hal' hout
    have hC := hag.known hknown
    cases ms with
    | nil =>
      have hno : L.note env (e, .fetched ⟨g, c, gen, lim⟩ (.ok [])) = L := by
        have : L.on g (fun C => C) = L := by
          rw [on_some hC]
          obtain ⟨a1, a2, a3⟩ := L
          simp only [Ledger.set, Ledger.mk.injEq, true_and]
          funext h
          dsimp only at hC
          split
          · next hh => rw [hh, hC]
          · rfl
        rcases hev e (by simp) with ⟨_, _, _, _, _, rfl⟩ | ⟨_, _, rfl | rfl | rfl | rfl⟩ <;> first | rfl | exact this
      rw [hno] at hstep
      refine goes_same hf rfl hb hL ?_ (rest _ hstep)
      subst hr
      exact .fetchNothing l now n g c gen lim wt L _ hL (by rw [hC]; simp) rfl
    | cons m ms =>
      have hclock : (∃ i, e = .attempt i now) ∨ ∃ i, e = .finish i now := by
        rcases ha.clock with h | h | h
        · exact .inl h
        · exact .inr h
        · exact absurd rfl (h m ms)
      have hno : L.note env (e, .fetched ⟨g, c, gen, lim⟩ (.ok (m :: ms))) = L.on g (fun C => C.hand env c now ((m :: ms).map (·.seq))) := by
        rcases hclock with ⟨i, rfl⟩ | ⟨i, rfl⟩ <;> rfl
      rw [hno, on_some hC] at hstep
      rw [hout] at heff
      generalize hms : m :: ms = all at *
      have hne : all ≠ [] := by rw [← hms]; simp
      -- who asks, and what is owed
      have hauth : gen = (Stream.viewAfter env.crc (newTopic env o) g (hist env bg n u o v ++ pre)).gen ∧
          ∃ conn, (c, conn) ∈ (Stream.viewAfter env.crc (newTopic env o) g (hist env bg n u o v ++ pre)).members := by
        generalize Stream.viewAfter env.crc (newTopic env o) g (hist env bg n u o v ++ pre) = v0 at heff
        generalize Stream.viewAfter env.crc (newTopic env o) g (hist env bg n u o v ++ pre ++ [e]) = v1 at heff
        cases heff with
        | delivery _ _ _ _ _ _ hauth => exact hauth hne
        | other _ _ _ hg =>
          simp only [Stream.Out.gives, if_true, List.map_eq_nil_iff] at hg
          exact absurd hg hne
        | seek => rcases hclock with ⟨i, hi⟩ | ⟨i, hi⟩ <;> cases hi
      have hlegal := fun s (hm : s ∈ all.map (·.seq)) => heff.gives_legal (s := s) (by simpa [Stream.Out.gives] using hm)
      generalize hvw : Stream.viewAfter env.crc (newTopic env o) g (hist env bg n u o v ++ pre) = vw at *
      obtain ⟨rfl, hmem⟩ := hauth
      have hseqs : (triples all).map (·.1) = all.map (·.seq) := by simp [triples]
      have hlen : all.length ≤ lim := by
        have := Stream.C46_limit_always env.crc (topicCfg env.sys o) id { segs := [], writers := [], groups := none } (hist env bg n u o v ++ pre) e _ _ hout
        exact this
      refine goes_new hf rfl hb (L' := L.set g (Crew.hand env c now ⟨vw.gen, vw.members, vw.fate⟩ ((triples all).map (·.1)))) ?_
        (rest _ (by rw [hseqs]; exact hstep))
      rw [hr] at hread
      subst hr
      refine .fetch l now n g c lim wt L _ _ (triples all) hL hC hmem hread (by simpa [triples] using hlen) ?_ ?_
      · rw [hseqs]
        refine nodup_of_count (fun s hs => ?_)
        have := (hlegal s hs).2.2.1
        simpa [Stream.Out.gives] using this
      · intro x hx
        obtain ⟨y, hy, rfl⟩ := List.mem_map.1 hx
        obtain ⟨k1, k2⟩ := hw.entry (hpub y hy)
        have hleg := (hlegal y.seq (List.mem_map_of_mem hy)).1
        have howed : (vw.fate y.seq).owed = true := by
          rcases hleg with h | ⟨k, h, _⟩ <;> rw [h] <;> rfl
        refine ⟨k1, ?_, k2, howed, ?_⟩
        · have := owed_kept h1 hknown howed
          rw [hag.head] at this
          exact this
        · have hmd := ht.ok.deliveries
          have hmax : (newTopic env o).cfg.maxDeliveries = env.sys.maxDeliveries := rfl
          rcases hleg with h | ⟨k, h, hk⟩
          · show (vw.fate y.seq).count < _
            rw [h]; simp only [Fate.count]; omega
          · show (vw.fate y.seq).count < _
            rw [h]; simp only [Fate.count]; rw [hmax] at hk; exact hk

end

end Verif.Rpc
