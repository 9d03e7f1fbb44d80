import Verif.Proofs.QueueHist
import Verif.Model.QueueRace

/-!
# Restarts: what is recovered
-/

namespace Verif.Queue

open Spec.Queue (Item Dead Q Core Req Ans)

theorem Sys.run_append : ∀ (a b : List Event) (s : Sys), (s.run (a ++ b)).1 = ((s.run a).1.run b).1 := by
  intro a
  induction a with
  | nil => intro b s; rfl
  | cons e t ih => intro b s; simp only [List.cons_append, Sys.run]; exact ih b _

theorem sent_append : ∀ (a b : List Event) (s : Sys), sent s (a ++ b) = sent s a ++ sent (s.run a).1 b := by
  intro a
  induction a with
  | nil => intro b s; rfl
  | cons e t ih => intro b s; simp only [List.cons_append, sent, ih, List.append_assoc, Sys.run]

theorem eventIds_append : ∀ (a b : List Event), eventIds (a ++ b) = eventIds a ++ eventIds b := by
  intro a
  induction a with
  | nil => intro b; rfl
  | cons e t ih =>
    intro b
    cases e <;> simp [eventIds, ih]

theorem ValidHist.left {a b : List Event} (h : ValidHist (a ++ b)) : ValidHist a := by
  obtain ⟨h1, h2⟩ := h
  rw [eventIds_append] at h2
  exact ⟨fun e he => h1 e (List.mem_append_left _ he), (List.nodup_append.1 h2).1⟩

theorem ValidHist.right {a b : List Event} (h : ValidHist (a ++ b)) : ValidHist b ∧ ∀ id ∈ eventIds b, id ∉ eventIds a := by
  obtain ⟨h1, h2⟩ := h
  rw [eventIds_append] at h2
  have h2 := List.nodup_append.1 h2
  exact ⟨⟨fun e he => h1 e (List.mem_append_right _ he), h2.2.1⟩, fun id hb ha => h2.2.2 id ha id hb rfl⟩

theorem sysInv (cfg : Config) {es : List Event} (hv : ValidHist es) : SysInv ((Sys.new cfg).run es).1 (· ∈ eventIds es) := by
  have h := SysInv.run es (SysInv.init cfg (fun _ => False)) hv (by simp)
  have hm : ∀ i, (False ∨ i ∈ eventIds es) → i ∈ eventIds es := fun i hi => by simpa using hi
  exact ⟨h.q.imp (fun a ha => ha.mono hm), h.db.mono hm, h.safe.mono hm, h.agree⟩

/-! ### `place` in terms of the tables -/

def placeOf (m : Option Msg) (d : Option DlqMsg) : Place :=
  match m, d with
  | some m, _ => match m.state with | .ready => .waiting m.item | .inFlight ts => .inFlight ts m.item
  | none, some d => .dead d
  | none, none => .gone

theorem find_eq_some_of {α : Type} {l : List α} {p : α → Bool} {x : α} (hx : x ∈ l) (hp : p x = true)
    (hu : ∀ y ∈ l, p y = true → y = x) : l.find? p = some x := by
  cases h : l.find? p with
  | none => rw [List.find?_eq_none] at h; exact absurd hp (h x hx)
  | some y =>
    have := hu y (List.mem_of_find?_eq_some h) (List.find?_some h)
    rw [this]

theorem place_eq {q : QInner} {a : Q} {used : Id → Prop} (h : RQ q a used) (id : Id) :
    place q id = placeOf (mget q.state.registry id) (mget q.dlq id) := by
  have v := h.view
  have key : ∀ m, mget q.state.registry id = some m → m.id = id := fun m hm => (RS.comp h.st id m hm).1
  unfold place
  cases hg : mget q.state.registry id with
  | some m =>
    have hid := key m hg
    have hmem := (v.reg m).2 (by rw [hid]; exact hg)
    cases hs : m.state with
    | ready =>
      have hw : m ∈ waiting q := by
        rcases hmem with hw | hf
        · exact hw
        · have := v.flightState m hf; rw [hs] at this; cases this
      have : (waiting q).find? (fun m => decide (m.id = id)) = some m :=
        find_eq_some_of hw (by simpa using hid) (by
          intro y hy hyp
          have hyi : y.id = id := by simpa using hyp
          have := (v.reg y).1 (Or.inl hy)
          rw [hyi, hg] at this; exact (Option.some.inj this).symm)
      simp only [this, placeOf, hs]
    | inFlight ts =>
      have hf : m ∈ inFlight q := by
        rcases hmem with hw | hf
        · have := v.waitReady m hw; rw [hs] at this; cases this
        · exact hf
      have h1 : (waiting q).find? (fun m => decide (m.id = id)) = none := by
        rw [List.find?_eq_none]
        intro y hy hyp
        have hyi : y.id = id := by simpa using hyp
        have hr := (v.reg y).1 (Or.inl hy)
        rw [hyi, hg] at hr
        have := v.waitReady y hy
        rw [← Option.some.inj hr, hs] at this; cases this
      have h2 : (inFlight q).find? (fun m => decide (m.id = id)) = some m :=
        find_eq_some_of hf (by simpa using hid) (by
          intro y hy hyp
          have hyi : y.id = id := by simpa using hyp
          have := (v.reg y).1 (Or.inr hy)
          rw [hyi, hg] at this; exact (Option.some.inj this).symm)
      simp only [h1, h2, placeOf, hs, Msg.due]
  | none =>
    have h1 : (waiting q).find? (fun m => decide (m.id = id)) = none := by
      rw [List.find?_eq_none]
      intro y hy hyp
      have hyi : y.id = id := by simpa using hyp
      have hr := (v.reg y).1 (Or.inl hy)
      rw [hyi, hg] at hr; cases hr
    have h2 : (inFlight q).find? (fun m => decide (m.id = id)) = none := by
      rw [List.find?_eq_none]
      intro y hy hyp
      have hyi : y.id = id := by simpa using hyp
      have hr := (v.reg y).1 (Or.inr hy)
      rw [hyi, hg] at hr; cases hr
    have hdk : ∀ d, d ∈ deadLetters q ↔ mget q.dlq d.id = some d := by
      intro d
      rw [deadLetters_eq, List.mem_reverse, List.mem_map]
      constructor
      · rintro ⟨e, he, rfl⟩
        rw [← h.dkey e he]
        exact h.dwf.mem_iff.1 he
      · intro hg
        exact ⟨_, mget_some_mem hg, rfl⟩
    cases hd : mget q.dlq id with
    | some d =>
      have hdid : d.id = id := (h.dkey _ (mget_some_mem hd)).symm
      have h3 : (deadLetters q).find? (fun d => decide (d.id = id)) = some d :=
        find_eq_some_of ((hdk d).2 (by rw [hdid]; exact hd)) (by simpa using hdid) (by
          intro y hy hyp
          have hyi : y.id = id := by simpa using hyp
          have := (hdk y).1 hy
          rw [hyi, hd] at this; exact (Option.some.inj this).symm)
      simp only [h1, h2, h3, placeOf]
    | none =>
      have h3 : (deadLetters q).find? (fun d => decide (d.id = id)) = none := by
        rw [List.find?_eq_none]
        intro y hy hyp
        have hyi : y.id = id := by simpa using hyp
        have := (hdk y).1 hy
        rw [hyi, hd] at this; cases this
      simp only [h1, h2, h3, placeOf]

theorem place_gone {q : QInner} {a : Q} {used : Id → Prop} (h : RQ q a used) (id : Id) :
    place q id = .gone ↔ id ∉ a.ids := by
  have v := h.view
  rw [place_eq h, Spec.Queue.ids_eq]
  have hreg : (mget q.state.registry id = none) ↔ id ∉ a.ready.map (·.id) ∧ id ∉ a.flight.map (fun e => e.2.id) := by
    constructor
    · intro hn
      exact ⟨fun hm => RS.none_not_ready h.st hn hm, fun hm => RS.none_not_flight h.st hn hm⟩
    · rintro ⟨h1, h2⟩
      cases hg : mget q.state.registry id with
      | none => rfl
      | some m =>
        rcases (RS.comp h.st id m hg).2 with ⟨_, h3⟩ | ⟨ts, _, h3⟩
        · exact absurd (List.mem_map.2 ⟨_, h3, (RS.comp h.st id m hg).1⟩) h1
        · exact absurd (List.mem_map.2 ⟨_, h3, (RS.comp h.st id m hg).1⟩) h2
  have hdk : a.dead.map (·.item.id) = mkeys q.dlq := by
    rw [← h.dead, List.map_map]
    exact List.map_congr_left (fun e he => (h.dkey e he).symm)
  rw [List.mem_append, List.mem_append, not_or, not_or, hdk, ← mget_eq_none, ← and_assoc, ← hreg]
  cases hg : mget q.state.registry id with
  | some m => cases hs : m.state <;> simp [placeOf, hs]
  | none => cases mget q.dlq id <;> simp [placeOf]

/-! ### Clock readings in the registry -/

/-- What the stored clock reading of a message says. -/
def MsgI (T : Nat) (m : Msg) : Prop :=
  match m.state with
  | .ready => m.visibleAt ≤ T ∨ m.attempts = 0
  | .inFlight ts => m.visibleAt = ts ∧ 0 < m.attempts

/-- What the stored clock readings say, with a bound for every message. -/
def RegIF (T : Id → Nat) (f : Id → Option Msg) : Prop := ∀ id m, f id = some m → MsgI (T id) m

def RegI (T : Nat) (f : Id → Option Msg) : Prop := RegIF (fun _ => T) f

theorem RegIF.set {T : Id → Nat} {f : Id → Option Msg} (h : RegIF T f) {i : Id} {o : Option Msg} (ho : ∀ m, o = some m → MsgI (T i) m) :
    RegIF T (fset f i o) := by
  intro id m hm
  by_cases hi : id = i
  · subst hi; rw [fset_same] at hm; exact ho m hm
  · rw [fset_ne _ _ hi] at hm; exact h id m hm

theorem MsgI.requeued (T : Nat) (m : Msg) : MsgI T { m with state := .ready, visibleAt := 0 } := Or.inl (Nat.zero_le _)

theorem RegIF.step {q : QInner} {a : Q} {used : Id → Prop} (h : RQ q a used) {T : Id → Nat} (hi : RegIF T (mget q.state.registry))
    (op : Op) (hok : op.ok) (hf : ∀ id ∈ op.pushId, ¬ used id) :
    RegIF T (mget (Verif.Queue.step q op).1.state.registry) := by
  obtain ⟨st, dead, dkey, dwf, disj, usedR, usedD⟩ := h
  cases op with
  | push id payload priority now =>
    have hn : mget q.state.registry id = none := by
      cases hg : mget q.state.registry id with
      | none => rfl
      | some m => exact absurd (usedR id (by simp [hg])) (hf id (by simp [Op.pushId]))
    have hp := SR.push st (m := Msg.new id payload priority now) hn rfl
    simp only [Verif.Queue.step, hp.2]
    exact hi.set (by rintro m h; cases h; exact Or.inr rfl)
  | pop now =>
    have hp := SR.popSingle (d := a.dead) st now q.cfg.visibilityTimeout
    simp only at hp
    obtain ⟨h1, h2, h3, h4, h5⟩ := hp
    rcases hps : q.state.popSingle now q.cfg.visibilityTimeout with ⟨o, b, s'⟩
    rw [hps] at h4 h5
    cases o with
    | none => have := h5 rfl; simp only at this; subst this; simp only [Verif.Queue.step, hps]; exact hi
    | some m =>
      obtain ⟨h6, m0, h7, _, h8⟩ := h4 m rfl
      simp only at h6
      simp only [Verif.Queue.step, hps, h6]
      exact hi.set (by intro m' h; cases h; rw [h8]; exact ⟨rfl, Nat.succ_pos _⟩)
  | consume max now =>
    have hok' : ¬ (max * msgSize > isizeMax) := Nat.not_lt.2 hok
    simp only [Verif.Queue.step, hok', if_false]
    have : ∀ (n : Nat) {s : QState} {r : List Item} {fl : List (Nat × Item)}, SR s r fl → RegIF T (mget s.registry) →
        RegIF T (mget (s.takeBatch now q.cfg.visibilityTimeout n).2.2.registry) := by
      intro n
      induction n with
      | zero => intro s r fl _ h; exact h
      | succ n ih =>
        intro s r fl hs h
        have hp := SR.popSingle (d := a.dead) hs now q.cfg.visibilityTimeout
        simp only at hp
        obtain ⟨h1, h2, h3, h4, h5⟩ := hp
        simp only [QState.takeBatch]
        rcases hps : s.popSingle now q.cfg.visibilityTimeout with ⟨o, b, s'⟩
        rw [hps] at h1 h4 h5
        cases o with
        | none => have := h5 rfl; simp only at this; subst this; exact h
        | some m =>
          obtain ⟨h6, m0, h7, _, h8⟩ := h4 m rfl
          simp only at h6
          refine ih h1 ?_
          rw [h6]
          exact h.set (by intro m' h; cases h; rw [h8]; exact ⟨rfl, Nat.succ_pos _⟩)
    exact this max st hi
  | ack id =>
    obtain ⟨h1, _, h3, h4⟩ := SR.ack (d := a.dead) st id
    simp only [Verif.Queue.step, h3]
    exact hi.set (by intro m h; cases h)
  | nack id reason now =>
    have hp := SR.nack (d := a.dead) st id reason q.cfg.maxRetries now
    simp only at hp
    obtain ⟨h1, h2⟩ := hp
    rcases hn : q.state.nack id reason q.cfg.maxRetries now with ⟨o, s'⟩
    rw [hn] at h2
    cases hg : mget q.state.registry id with
    | none =>
      rw [hg] at h2
      obtain ⟨h3, h4, _⟩ := h2
      simp only at h3 h4
      subst h3 h4
      simp only [Verif.Queue.step, hn]; exact hi
    | some m =>
      rw [hg] at h2
      obtain ⟨_, h2⟩ := h2
      simp only at h2
      split at h2
      · obtain ⟨h3, h6, h7⟩ := h2
        subst h3
        simp only [Verif.Queue.step, hn, h7]
        exact hi.set (by intro m h; cases h)
      · obtain ⟨h3, h6, h7⟩ := h2
        subst h3
        simp only [Verif.Queue.step, hn, h7]
        exact hi.set (by intro m h; cases h; exact Or.inl (Nat.zero_le _))
  | tick now now' =>
    cases hnt : q.state.nextTimeout with
    | none => simp only [Verif.Queue.step, hnt]; exact hi
    | some ts =>
      by_cases hts : ts ≤ now
      · simp only [Verif.Queue.step, hnt, hts, if_true]
        have hp := SR.processExpired (d := a.dead) st q.cfg.maxRetries now'
        simp only at hp
        obtain ⟨e1, e2, e3, e4, e5, e6, e7⟩ := hp
        generalize hP : q.state.processExpired q.cfg.maxRetries now' = P at *
        intro i m hm
        by_cases hD : i ∈ P.1.2.map (·.id)
        · rw [e6 i hD] at hm; cases hm
        · rw [e7 i hD] at hm
          split at hm
          · obtain ⟨m0, _, rfl⟩ := Option.map_eq_some_iff.1 hm
            exact MsgI.requeued (T i) m0
          · exact hi i m hm
      · simp only [Verif.Queue.step, hnt, hts, if_false]; exact hi
  | moveToQueue id =>
    cases hg : mget q.dlq id with
    | none => simp only [Verif.Queue.step, dlqRemove, hg]; exact hi
    | some d =>
      have hmem := mget_some_mem hg
      have hdid : d.id = id := (dkey _ hmem).symm
      have hn : mget q.state.registry d.toMsg.id = none := by
        rw [show d.toMsg.id = id from hdid]; exact disj id (List.mem_map.2 ⟨_, hmem, rfl⟩)
      have hp := SR.push st (m := d.toMsg) hn rfl
      simp only [Verif.Queue.step, dlqRemove, hg, hp.2]
      exact hi.set (by intro m h; cases h; exact Or.inr rfl)
  | deleteDlq id =>
    cases hg : mget q.dlq id <;> simp only [Verif.Queue.step, dlqRemove, hg] <;> exact hi
  | peekDlq limit offset => exact hi
  | purgeDlq => exact hi
  | counters => exact hi

theorem RegI.step {q : QInner} {a : Q} {used : Id → Prop} (h : RQ q a used) {T : Nat} (hi : RegI T (mget q.state.registry))
    (op : Op) (hok : op.ok) (hf : ∀ id ∈ op.pushId, ¬ used id) :
    RegI T (mget (Verif.Queue.step q op).1.state.registry) := RegIF.step h hi op hok hf

theorem RegI.recover {db : DB} {used : Id → Prop} (h : DBI db used) (cfg : Config) (now : Nat) :
    RegI now (mget (Verif.Queue.recover cfg now db).state.registry) := by
  intro id m hm
  rw [(RQ.recover h cfg now).2.2 id] at hm
  obtain ⟨r, hr, rfl⟩ := Option.map_eq_some_iff.1 hm
  unfold MsgI loadRow
  simp only
  split
  · next h => split at h
              · cases h
              · next hc => simp only [not_and, Nat.not_lt] at hc
                           by_cases h0 : r.visibleAt ≤ now
                           · exact Or.inl h0
                           · right; have := hc (by omega); omega
  · next ts h => split at h
                 · next hc => cases h; exact ⟨rfl, hc.2⟩
                 · cases h

theorem lastStart_append (es : List Event) (e : Event) :
    lastStart (es ++ [e]) = match e with | .restart now => now | _ => lastStart es := by
  simp only [lastStart, List.foldl_append, List.foldl_cons, List.foldl_nil]
  cases e <;> rfl

/-- Induction on histories from the end. -/
theorem hist_induction {P : List Event → Prop} (h0 : P []) (h1 : ∀ es e, P es → P (es ++ [e])) : ∀ es, P es := by
  have : ∀ n es, es.length = n → P es := by
    intro n
    induction n with
    | zero => intro es h; rw [List.length_eq_zero_iff.1 h]; exact h0
    | succ n ih =>
      intro es h
      have hne : es ≠ [] := by intro hh; rw [hh] at h; simp at h
      rw [← List.dropLast_concat_getLast hne]
      refine h1 _ _ (ih _ ?_)
      rw [List.length_dropLast, h]; rfl
  exact fun es => this _ es rfl

theorem regI (cfg : Config) : ∀ es, ValidHist es → RegI (lastStart es) (mget ((Sys.new cfg).run es).1.q.state.registry) := by
  refine hist_induction ?_ ?_
  · intro _ id m hm; cases hm
  · intro es e ih hv
    have hv' := hv.left
    have hi := ih hv'
    have inv := sysInv cfg hv'
    obtain ⟨a, ha⟩ := inv.q
    rw [Sys.run_append, lastStart_append]
    cases e with
    | op o =>
      refine RegI.step ha hi o (hv.1 (.op o) (by simp)) ?_
      intro id hid
      exact (hv.right).2 id (by simpa [eventIds] using hid)
    | commit n => exact hi
    | restart now => exact RegI.recover inv.db _ now

/-! ### Restart of a database that agrees with a queue -/

def entry (db : DB) (id : Id) : Option Row × Option DlqMsg := (mget db.main id, mget db.dlq id)

/-- If the database entry of a message is that of the queue `q`, then a restart puts the message where it
should be. -/
theorem place_recover {q : QInner} {a : Q} {used used' : Id → Prop} (h : RQ q a used) {T now : Nat}
    (hr : RegI T (mget q.state.registry)) (hT : T ≤ now) {db db' : DB} (hdb : DBR q db) (hi : DBI db' used') (cfg : Config) (id : Id)
    (he : entry db' id = entry db id) : place (recover cfg now db') id = (place q id).afterRestart now := by
  obtain ⟨r1, r2, r3⟩ := RQ.recover hi cfg now
  rw [place_eq r1, place_eq h, r3, r2]
  simp only [entry, Prod.mk.injEq] at he
  rw [he.1, he.2, hdb.main.eq id, hdb.dlq]
  cases hg : mget q.state.registry id with
  | none => cases mget q.dlq id <;> rfl
  | some m =>
    have hm := hr id m hg
    have hid := (RS.comp h.st id m hg).1
    unfold MsgI at hm
    simp only [Option.map_some, placeOf, loadRow, Msg.row]
    cases hs : m.state with
    | ready =>
      rw [hs] at hm
      simp only at hm
      have : ¬ (m.visibleAt > now ∧ m.attempts > 0) := by omega
      simp only [this, if_false, Place.afterRestart, Msg.item, hid]
    | inFlight ts =>
      rw [hs] at hm
      simp only at hm
      obtain ⟨h1, h2⟩ := hm
      simp only [Place.afterRestart, Msg.item]
      by_cases hn : now < ts
      · have : m.visibleAt > now ∧ m.attempts > 0 := by omega
        simp only [this, and_self, if_true, hn, h1, hid]
      · have : ¬ (m.visibleAt > now ∧ m.attempts > 0) := by omega
        simp only [this, if_false, hn, hid]

/-! ### Committed prefixes -/

theorem commit_split : ∀ (es : List Event), noRestart es → ∀ (s : Sys),
    ∃ C, C ++ (s.run es).1.pending = s.pending ++ sent s es ∧ (s.run es).1.db = execAll s.db C := by
  intro es
  induction es with
  | nil => intro _ s; exact ⟨[], by simp [Sys.run, sent], rfl⟩
  | cons e t ih =>
    intro hn s
    obtain ⟨C, h1, h2⟩ := ih (fun e he => hn e (List.mem_cons_of_mem _ he)) (s.step e).1
    simp only [Sys.run, sent]
    cases e with
    | op o =>
      refine ⟨C, ?_, h2⟩
      rw [h1]; simp [Sys.step, sentBy]
    | commit n =>
      refine ⟨s.pending.take n ++ C, ?_, ?_⟩
      · rw [List.append_assoc, h1]; simp only [Sys.step, sentBy, List.nil_append, ← List.append_assoc, List.take_append_drop]
      · rw [h2]; simp only [Sys.step, execAll_append]
    | restart now => exact absurd rfl (hn _ (List.mem_cons_self ..) now)

/-- A prefix of the operations sent ends between two requests or inside one. -/
theorem sent_cut : ∀ (es : List Event) (s : Sys) (k : Nat), k ≤ (sent s es).length →
    ∃ a b, es = a ++ b ∧ ((sent s es).take k = sent s a ∨
      ∃ o b' j, b = .op o :: b' ∧ (sent s es).take k = sent s a ++ (step (s.run a).1.q o).2.2.take j) := by
  intro es
  induction es with
  | nil => intro s k hk; exact ⟨[], [], rfl, Or.inl (by simp [sent])⟩
  | cons e t ih =>
    intro s k hk
    simp only [sent] at hk ⊢
    generalize hL : sentBy s e = L at *
    by_cases hlt : k < L.length
    · cases e with
      | op o =>
        simp only [sentBy] at hL
        refine ⟨[], .op o :: t, rfl, Or.inr ⟨o, t, k, rfl, ?_⟩⟩
        rw [List.take_append_of_le_length (Nat.le_of_lt hlt), ← hL]; rfl
      | commit n => simp only [sentBy] at hL; subst hL; simp at hlt
      | restart n => simp only [sentBy] at hL; subst hL; simp at hlt
    · have hle := Nat.not_lt.1 hlt
      rw [List.length_append] at hk
      obtain ⟨a, b, h1, h2⟩ := ih (s.step e).1 (k - L.length) (by omega)
      refine ⟨e :: a, b, by rw [h1]; rfl, ?_⟩
      have hk' : (L ++ sent (s.step e).1 t).take k = L ++ (sent (s.step e).1 t).take (k - L.length) := by
        rw [List.take_append, List.take_of_length_le hle]
      rw [hk']
      simp only [sent, hL, Sys.run]
      rcases h2 with h2 | ⟨o, b', j, h3, h4⟩
      · exact Or.inl (by rw [h2])
      · exact Or.inr ⟨o, b', j, h3, by rw [h4, List.append_assoc]⟩

/-! ### Operations touch single messages -/

theorem mget_insertRow_ne {V : Type} {t : List (Id × V)} {i id : Id} {v : V} (h : i ≠ id) :
    mget (insertRow t i v) id = mget t id := by
  unfold insertRow
  split
  · rfl
  · rw [mget_append]
    cases mget t id with
    | some x => rfl
    | none => simp [mget, h]

theorem entry_exec_ne {db : DB} {op : StorageOp} {id : Id} (h : touches id op = false) :
    entry (execOp db op) id = entry db id := by
  cases op <;> simp only [touches, decide_eq_false_iff_not, Bool.or_eq_false_iff, Bool.true_eq_false] at h <;>
    simp only [entry, execOp]
  case insert m => rw [mget_insertRow_ne h]
  case delete i => rw [mget_mdel, if_neg (fun hh => h hh.symm)]
  case updateState i v a => rw [mget_mupd, if_neg (fun hh => h hh.symm)]
  case insertDlq m => rw [mget_insertRow_ne h]
  case deleteDlq i => rw [mget_mdel, if_neg (fun hh => h hh.symm)]
  case moveToDlq i m => rw [mget_insertRow_ne h.2, mget_mdel, if_neg (fun hh => h.1 hh.symm)]
  case moveToMain i m => rw [mget_insertRow_ne h.2, mget_mdel, if_neg (fun hh => h.1 hh.symm)]

theorem entry_execAll_ne {id : Id} : ∀ (L : List StorageOp) {db : DB}, L.filter (touches id) = [] →
    entry (execAll db L) id = entry db id := by
  intro L
  induction L with
  | nil => intro db _; rfl
  | cons op t ih =>
    intro db h
    rw [List.filter_cons] at h
    split at h
    · cases h
    · next hn =>
      simp only [execAll, List.foldl_cons] at ih ⊢
      rw [ih h, entry_exec_ne (by simpa using hn)]

/-- If at most one operation touches the message, then after a prefix its entry is as before or as after. -/
theorem entry_prefix {id : Id} {L : List StorageOp} (h : (L.filter (touches id)).length ≤ 1) (db : DB) (j : Nat) :
    entry (execAll db (L.take j)) id = entry db id ∨ entry (execAll db (L.take j)) id = entry (execAll db L) id := by
  have hs : L.filter (touches id) = (L.take j).filter (touches id) ++ (L.drop j).filter (touches id) := by
    rw [← List.filter_append, List.take_append_drop]
  rw [hs, List.length_append] at h
  by_cases h1 : (L.take j).filter (touches id) = []
  · exact Or.inl (entry_execAll_ne _ h1)
  · right
    have h2 : (L.drop j).filter (touches id) = [] := by
      apply List.length_eq_zero_iff.1
      have : ((L.take j).filter (touches id)).length ≠ 0 := fun hh => h1 (List.length_eq_zero_iff.1 hh)
      omega
    conv => rhs; rw [← List.take_append_drop j L, execAll_append]
    exact (entry_execAll_ne _ h2).symm

theorem filter_map_le {α : Type} {f : α → StorageOp} {k : α → Id} {id : Id} : ∀ {l : List α}, (l.map k).Nodup →
    (∀ x ∈ l, touches id (f x) = decide (k x = id)) → ((l.map f).filter (touches id)).length ≤ 1 := by
  intro l hn ht
  have h1 : ((l.map f).filter (touches id)).length = ((l.map k).filter (fun i => decide (i = id))).length := by
    rw [List.filter_map, List.filter_map, List.length_map, List.length_map]
    congr 1
    apply List.filter_congr
    intro x hx
    exact ht x hx
  rw [h1]
  have h2 : ((l.map k).filter (fun i => decide (i = id))).length = (l.map k).count id := by
    rw [List.count, List.countP_eq_length_filter]
    rfl
  rw [h2]
  exact List.nodup_iff_count.1 hn id

theorem takeBatch_ids {q : QInner} {a : Q} {used : Id → Prop} (h : RQ q a used) (n now : Nat) (hok : (Op.consume n now).ok) :
    ((q.state.takeBatch now q.cfg.visibilityTimeout n).1.map (·.id)).Nodup := by
  obtain ⟨s1, s2⟩ := RQ.step h (.consume n now) hok (by simp [Op.pushId])
  have v := h.view
  have hk : ¬ (n * msgSize > isizeMax) := Nat.not_lt.2 hok
  have hm : (Verif.Queue.step q (.consume n now)).2.1 = .msgs (q.state.takeBatch now q.cfg.visibilityTimeout n).1 := by
    simp only [Verif.Queue.step, hk, if_false]
  rw [hm] at s2
  simp only [Out.ans, sstep, Op.req, Spec.Queue.step, Option.some.injEq, Ans.msgs.injEq] at s2
  obtain ⟨e1, e2, e3, e4⟩ := Spec.Queue.serveN_eq (now + q.cfg.visibilityTimeout) n a
  rw [e1] at s2
  have hids : (q.state.takeBatch now q.cfg.visibilityTimeout n).1.map (·.id) = (a.ready.take n).map (·.id) := by
    have := congrArg (List.map Item.id) s2
    rw [List.map_map, List.map_map] at this
    exact this
  rw [hids]
  exact ((List.take_sublist n a.ready).map _).nodup (Spec.Queue.Distinct.ready v.distinct)

theorem step_touch {q : QInner} {a : Q} {used : Id → Prop} (h : RQ q a used) (op : Op) (hok : op.ok) (id : Id) :
    ((step q op).2.2.filter (touches id)).length ≤ 1 := by
  have short : ∀ {L : List StorageOp}, L.length ≤ 1 → (L.filter (touches id)).length ≤ 1 :=
    fun hL => Nat.le_trans (List.length_filter_le _ _) hL
  cases op with
  | consume n now =>
    have hk : ¬ (n * msgSize > isizeMax) := Nat.not_lt.2 hok
    simp only [Verif.Queue.step, hk, if_false]
    exact filter_map_le (k := Msg.id) (takeBatch_ids h n now hok) (fun x _ => rfl)
  | tick now now' =>
    cases hnt : q.state.nextTimeout with
    | none => apply short; simp [Verif.Queue.step, hnt]
    | some ts =>
      by_cases hts : ts ≤ now
      · simp only [Verif.Queue.step, hnt, hts, if_true]
        have hp := SR.processExpired (d := a.dead) h.st q.cfg.maxRetries now'
        simp only at hp
        obtain ⟨e1, e2, e3, e4, e5, e6, e7⟩ := hp
        generalize hP : q.state.processExpired q.cfg.maxRetries now' = P at *
        have e4' := List.nodup_append.1 e4
        have b1 := filter_map_le (f := fun m => StorageOp.updateState m.id 0 m.attempts) (k := Msg.id) (id := id) e4'.1 (fun x _ => rfl)
        have b2 := filter_map_le (f := fun d => StorageOp.moveToDlq d.id d) (k := DlqMsg.id) (id := id) e4'.2.1 (fun x _ => by simp [touches])
        rw [List.filter_append, List.length_append]
        by_cases hi : id ∈ P.1.1.map (·.id)
        · have : (P.1.2.map (fun d => StorageOp.moveToDlq d.id d)).filter (touches id) = [] := by
            rw [List.filter_eq_nil_iff]
            intro x hx
            obtain ⟨d, hd, rfl⟩ := List.mem_map.1 hx
            have : d.id ≠ id := fun hh => e4'.2.2 id hi d.id (List.mem_map.2 ⟨d, hd, rfl⟩) hh.symm
            simp [touches, this]
          rw [this]; simpa using b1
        · have : (P.1.1.map (fun m => StorageOp.updateState m.id 0 m.attempts)).filter (touches id) = [] := by
            rw [List.filter_eq_nil_iff]
            intro x hx
            obtain ⟨d, hd, rfl⟩ := List.mem_map.1 hx
            have : d.id ≠ id := fun hh => hi (List.mem_map.2 ⟨d, hd, hh⟩)
            simp [touches, this]
          rw [this]; simpa using b2
      · apply short; simp [Verif.Queue.step, hnt, hts]
  | push _ _ _ _ => apply short; simp [Verif.Queue.step]
  | pop now =>
    apply short
    simp only [Verif.Queue.step]
    split <;> simp
  | ack i =>
    apply short
    simp only [Verif.Queue.step]
    split <;> simp
  | nack i reason now =>
    apply short
    simp only [Verif.Queue.step]
    split <;> simp
  | peekDlq _ _ => apply short; simp [Verif.Queue.step]
  | moveToQueue i =>
    apply short
    simp only [Verif.Queue.step]
    split <;> simp
  | deleteDlq i =>
    apply short
    simp only [Verif.Queue.step]
    split <;> simp
  | purgeDlq => apply short; simp [Verif.Queue.step]
  | counters => apply short; simp [Verif.Queue.step]

/-- The database that all operations sent so far lead to agrees with the queue. -/
theorem agree_sent (cfg : Config) {es a : List Event} (hv : ValidHist (es ++ a)) (hn : noRestart a) :
    let s := ((Sys.new cfg).run es).1
    DBR (s.run a).1.q (execAll s.db (s.pending ++ sent s a)) := by
  intro s
  have inv := sysInv cfg hv
  have := inv.agree
  rw [Sys.run_append] at this
  obtain ⟨C, h1, h2⟩ := commit_split a hn s
  have h2' : ((Sys.new cfg).run es).1 = s := rfl
  rw [h2', h2, ← execAll_append, h1] at this
  exact this

/-! ### Histories without restart are histories of requests -/

def opsOf : List Event → List Op
  | [] => []
  | .op o :: t => o :: opsOf t
  | _ :: t => opsOf t

theorem Sys.run_ops : ∀ (es : List Event), noRestart es → ∀ (s : Sys), (s.run es).1.q = (Verif.Queue.run s.q (opsOf es)).1 ∧
    (s.run es).2.filterMap (fun o => o) = (Verif.Queue.run s.q (opsOf es)).2 := by
  intro es
  induction es with
  | nil => intro _ s; exact ⟨rfl, rfl⟩
  | cons e t ih =>
    intro hn s
    obtain ⟨h1, h2⟩ := ih (fun e he => hn e (List.mem_cons_of_mem _ he)) (s.step e).1
    simp only [Sys.run]
    cases e with
    | op o =>
      simp only [opsOf, Verif.Queue.run, List.filterMap_cons]
      exact ⟨h1, by rw [h2]; rfl⟩
    | commit n => exact ⟨h1, by simp only [List.filterMap_cons, Sys.step] at h2 ⊢; exact h2⟩
    | restart now => exact absurd rfl (hn _ (List.mem_cons_self ..) now)

theorem pushIds_opsOf : ∀ (es : List Event), pushIds (opsOf es) = eventIds es := by
  intro es
  induction es with
  | nil => rfl
  | cons e t ih =>
    cases e with
    | op o => simp only [opsOf, pushIds_cons, eventIds, ih]
    | commit n => exact ih
    | restart now => exact ih

theorem mem_opsOf {o : Op} : ∀ {es : List Event}, o ∈ opsOf es ↔ .op o ∈ es := by
  intro es
  induction es with
  | nil => simp [opsOf]
  | cons e t ih => cases e <;> simp [opsOf, ih]

theorem ValidHist.fresh {es es2 : List Event} (hv : ValidHist (es ++ es2)) : Fresh (eventIds es) (opsOf es2) := by
  obtain ⟨h1, h2⟩ := hv.right
  refine ⟨fun o ho => h1.1 (.op o) (mem_opsOf.1 ho), by rw [pushIds_opsOf]; exact h1.2, ?_⟩
  intro id hid
  rw [pushIds_opsOf] at hid
  exact h2 id hid

theorem mem_places {q : QInner} {a : Q} {used : Id → Prop} (h : RQ q a used) (id : Id) :
    id ∈ (places q).map (·.1) ↔ place q id ≠ .gone := by
  rw [ne_eq, place_gone h, Classical.not_not]
  have : a.ids = a.cores.map (·.1) := rfl
  rw [this]
  exact (h.view.places.map (fun c : Core => c.1)).mem_iff

theorem mem_removed {id : Id} : ∀ {ops : List Op} {q : QInner}, id ∈ (removed q ops).map (·.1) →
    .ack id ∈ ops ∨ .deleteDlq id ∈ ops ∨ .purgeDlq ∈ ops := by
  intro ops
  induction ops with
  | nil => intro q h; simp [removed] at h
  | cons op t ih =>
    intro q h
    simp only [removed, List.map_append, List.mem_append] at h
    rcases h with h | h
    · cases op with
      | ack i =>
        left
        simp only [removedBy, List.map_map, List.mem_map, List.mem_filter, decide_eq_true_eq] at h
        obtain ⟨m, ⟨_, hm⟩, hi⟩ := h
        have : i = id := by rw [← hm]; exact hi
        rw [this]; exact List.mem_cons_self ..
      | deleteDlq i =>
        right; left
        simp only [removedBy, List.map_map, List.mem_map, List.mem_filter, decide_eq_true_eq] at h
        obtain ⟨m, ⟨_, hm⟩, hi⟩ := h
        have : i = id := by rw [← hm]; exact hi
        rw [this]; exact List.mem_cons_self ..
      | purgeDlq => right; right; exact List.mem_cons_self ..
      | _ => simp [removedBy] at h
    · rcases ih h with h | h | h
      · exact Or.inl (List.mem_cons_of_mem _ h)
      · exact Or.inr (Or.inl (List.mem_cons_of_mem _ h))
      · exact Or.inr (Or.inr (List.mem_cons_of_mem _ h))

/-- A message in the queue stays there while it is not settled, deleted or purged. -/
theorem keep_run {id : Id} {ops : List Op} {q : QInner} {a : Q} {used : List Id} (h : RQ q a (· ∈ used)) (hf : Fresh used ops)
    (hin : place q id ≠ .gone) (h1 : .ack id ∉ ops) (h2 : .deleteDlq id ∉ ops) (h3 : .purgeDlq ∉ ops) :
    place (run q ops).1 id ≠ .gone := by
  have hr := (h.runU hf).1
  rw [← mem_places hr]
  rw [← mem_places h] at hin
  have hp := (places_run ops h hf).map (fun c : Core => c.1)
  have := hp.mem_iff.2 (by rw [List.map_append]; exact List.mem_append_left _ hin)
  rw [List.map_append] at this
  rcases List.mem_append.1 this with h | h
  · exact h
  · rcases mem_removed h with h | h | h
    · exact absurd h h1
    · exact absurd h h2
    · exact absurd h h3

theorem afterRestart_gone (now : Nat) (p : Place) : p.afterRestart now = .gone ↔ p = .gone := by
  cases p <;> simp only [Place.afterRestart]
  · split <;> simp

theorem lastStart_noRestart (es : List Event) : ∀ a, noRestart a → lastStart (es ++ a) = lastStart es := by
  intro a
  induction a using hist_induction with
  | h0 => intro _; rw [List.append_nil]
  | h1 a e ih =>
    intro hna
    rw [← List.append_assoc, lastStart_append]
    cases e with
    | restart t => exact absurd rfl (hna _ (List.mem_append_right _ (List.mem_singleton.2 rfl)) t)
    | op o => exact ih (fun e he => hna e (List.mem_append_left _ he))
    | commit n => exact ih (fun e he => hna e (List.mem_append_left _ he))

theorem gone_events (cfg : Config) {es es2 : List Event} (hv : ValidHist (es ++ es2)) (hn : noRestart es2) {id : Id}
    (hg : place ((Sys.new cfg).run es).1.q id = .gone) (hu : id ∈ eventIds es) :
    place ((Sys.new cfg).run (es ++ es2)).1.q id = .gone := by
  obtain ⟨a, ha⟩ := (sysInv cfg hv.left).q
  rw [Sys.run_append, (Sys.run_ops es2 hn _).1]
  obtain ⟨_, a', g2, g3⟩ := gone_run (opsOf es2) ha hv.fresh ((place_gone ha id).1 hg) hu
  exact (place_gone g2 id).2 g3

theorem keep_events (cfg : Config) {es es2 : List Event} (hv : ValidHist (es ++ es2)) (hn : noRestart es2) {id : Id}
    (hg : place ((Sys.new cfg).run es).1.q id ≠ .gone)
    (h1 : .op (.ack id) ∉ es2) (h2 : .op (.deleteDlq id) ∉ es2) (h3 : .op .purgeDlq ∉ es2) :
    place ((Sys.new cfg).run (es ++ es2)).1.q id ≠ .gone := by
  obtain ⟨a, ha⟩ := (sysInv cfg hv.left).q
  rw [Sys.run_append, (Sys.run_ops es2 hn _).1]
  exact keep_run ha hv.fresh hg (fun h => h1 (mem_opsOf.1 h)) (fun h => h2 (mem_opsOf.1 h)) (fun h => h3 (mem_opsOf.1 h))

theorem ack_place {q : QInner} {a : Q} {used : List Id} (h : RQ q a (· ∈ used)) {id : Id}
    (hack : (step q (.ack id)).2.1 = .bool true) : place (step q (.ack id)).1 id = .gone := by
  obtain ⟨s1, s2, s3⟩ := h.stepU (op := .ack id) trivial (by simp [Op.pushId])
  exact (place_gone s1 id).2 (ack_gone h hack).1

theorem push_place {q : QInner} {a : Q} {used : List Id} (h : RQ q a (· ∈ used)) {id : Id} {pl : Bytes} {pr t : Nat}
    (hok : (Op.push id pl pr t).ok) (hu : id ∉ used) : place (step q (.push id pl pr t)).1 id ≠ .gone := by
  have hf : Fresh used [.push id pl pr t] := by
    refine ⟨by simpa using hok, by simp [pushIds], by simpa [pushIds] using hu⟩
  have hr := (h.runU hf).1
  have hp := (places_run _ h hf).map (fun c : Core => c.1)
  have hm := hp.mem_iff (a := id)
  rw [← show (run q [.push id pl pr t]).1 = (step q (.push id pl pr t)).1 from rfl, ← mem_places hr]
  simpa [removed, removedBy, pushed] using hm

theorem one_place {q : QInner} {a : Q} {used : Id → Prop} (h : RQ q a used) :
    ((waiting q ++ inFlight q).map (·.id) ++ (deadLetters q).map (·.id)).Nodup := by
  have hp := h.view.places.map (fun c : Core => c.1)
  have : (places q).map (fun c : Core => c.1) = (waiting q ++ inFlight q).map (·.id) ++ (deadLetters q).map (·.id) := by
    simp [places, Msg.core, Function.comp_def, DlqMsg.core]
  rw [this] at hp
  exact hp.nodup_iff.2 h.view.distinct

theorem lastStart_raceOps : ∀ es, lastStart (raceOps es) = 0 := by
  intro es
  have : ∀ es, noRestart (raceOps es) := by
    intro es
    induction es with
    | nil => intro e he; simp [raceOps] at he
    | cons x t ih =>
      cases x with
      | op o =>
        intro e he
        rcases List.mem_cons.1 he with he | he
        · rw [he]; intro now hh; cases hh
        · exact ih e he
      | _ => exact ih
  have h := lastStart_noRestart [] (raceOps es) (this es)
  simpa [lastStart] using h

theorem dbi_committed (cfg : Config) {es : List Event} (hv : ValidHist es) :
    DBI (execAll ((Sys.new cfg).run es).1.db ((Sys.new cfg).run es).1.pending) (· ∈ eventIds es) := by
  have hv' : ValidHist (es ++ [.commit ((Sys.new cfg).run es).1.pending.length]) := by
    refine ⟨?_, ?_⟩
    · intro e he
      rcases List.mem_append.1 he with he | he
      · exact hv.1 e he
      · rw [List.mem_singleton.1 he]; trivial
    · rw [eventIds_append]; simpa [eventIds] using hv.2
  have := (sysInv cfg hv').db
  rw [Sys.run_append, eventIds_append] at this
  simpa [Sys.run, Sys.step, eventIds] using this

/-! ### Deliveries left, by place -/

def leftAt (mr : Nat) : Place → Nat
  | .waiting x => Spec.Queue.leftR mr x
  | .inFlight _ x => Spec.Queue.leftF mr x
  | _ => 0

theorem budget_place {q : QInner} {a : Q} {used : Id → Prop} (h : RQ q a used) (mr id : Nat) :
    Spec.Queue.budget mr id a = leftAt mr (place q id) := by
  have v := h.view
  have hd := v.distinct
  unfold Spec.Queue.Q.Distinct at hd
  rw [Spec.Queue.ids_eq] at hd
  have hd2 := List.nodup_append.1 hd
  have hndf : ((a.flight.map (·.2)).map (·.id)).Nodup := by
    have := (List.nodup_append.1 hd2.2.1).1
    rw [List.map_map]; exact this
  rw [place_eq h]
  unfold Spec.Queue.budget
  cases hg : mget q.state.registry id with
  | none =>
    rw [Spec.Queue.weigh_zero (fun hm => RS.none_not_ready h.st hg hm),
      Spec.Queue.weigh_zero (fun hm => RS.none_not_flight h.st hg (by simpa using hm))]
    cases mget q.dlq id <;> rfl
  | some m =>
    obtain ⟨hid, hc⟩ := RS.comp h.st id m hg
    rcases hc with ⟨h1, h2⟩ | ⟨ts, h1, h2⟩
    · have hf : id ∉ (a.flight.map (·.2)).map (·.id) := fun hh =>
        hd2.2.2 id (List.mem_map.2 ⟨_, h2, hid⟩) id (List.mem_append_left _ (by simpa using hh)) rfl
      rw [Spec.Queue.weigh_zero hf]
      have := Spec.Queue.filter_eq_of_nodup (k := Item.id) hd2.1 h2
      have hmid : m.item.id = id := hid
      rw [hmid] at this
      simp [Spec.Queue.weigh, this, placeOf, h1, leftAt]
    · have hr : id ∉ a.ready.map (·.id) := fun hh =>
        hd2.2.2 id hh id (List.mem_append_left _ (List.mem_map.2 ⟨_, h2, hid⟩)) rfl
      rw [Spec.Queue.weigh_zero hr]
      have hm2 : m.item ∈ a.flight.map (·.2) := List.mem_map.2 ⟨_, h2, rfl⟩
      have := Spec.Queue.filter_eq_of_nodup (k := Item.id) hndf hm2
      have hmid : m.item.id = id := hid
      rw [hmid] at this
      simp [Spec.Queue.weigh, this, placeOf, h1, leftAt]

theorem leftAt_restart (mr now : Nat) (p : Place) : leftAt mr (p.afterRestart now) ≤ leftAt mr p + 1 := by
  cases p with
  | inFlight due x =>
    simp only [Place.afterRestart]
    split
    · exact Nat.le_succ _
    · simp only [leftAt, Spec.Queue.leftR, Spec.Queue.leftF]; omega
  | _ => exact Nat.le_succ _

theorem restarts_append (es : List Event) (e : Event) :
    restarts (es ++ [e]) = restarts es + (match e with | .restart _ => 1 | _ => 0) := by
  unfold restarts
  rw [List.filter_append, List.length_append]
  cases e <;> rfl

theorem CleanRestarts.append : ∀ {es es2 : List Event} {s : Sys}, CleanRestarts s (es ++ es2) ↔
    CleanRestarts s es ∧ CleanRestarts (s.run es).1 es2 := by
  intro es
  induction es with
  | nil => intro es2 s; simp [CleanRestarts, Sys.run]
  | cons e t ih => intro es2 s; simp only [List.cons_append, CleanRestarts, ih, Sys.run, and_assoc]

theorem delivered_append (id : Id) : ∀ (es : List Event) (e : Event) (s : Sys),
    delivered id (s.run (es ++ [e])).2 = delivered id (s.run es).2 + deliveries id ((s.run es).1.step e).2.toList := by
  intro es
  induction es with
  | nil =>
    intro e s
    simp only [List.nil_append, Sys.run, delivered, deliveries]
    cases (s.step e).2 <;> simp
  | cons x t ih =>
    intro e s
    have := ih e (s.step x).1
    simp only [List.cons_append, Sys.run, delivered, deliveries] at this ⊢
    cases (s.step x).2 with
    | none => simpa using this
    | some o => simp only [List.filterMap_cons, List.flatMap_cons, List.count_append, this]; omega

/-- Deliveries over a history in which every restart finds everything committed: one more per restart. -/
theorem delivered_clean (cfg : Config) (id : Id) : ∀ es, ValidHist es → (∀ e ∈ es, e ≠ .op (.moveToQueue id)) →
    (∀ t now, (∃ r, es = t ++ .restart now :: r) → lastStart t ≤ now) → CleanRestarts (Sys.new cfg) es →
    delivered id ((Sys.new cfg).run es).2 + leftAt cfg.maxRetries (place ((Sys.new cfg).run es).1.q id) ≤
      max 1 cfg.maxRetries * (eventIds es).count id + restarts es := by
  refine hist_induction ?_ ?_
  · intro _ _ _ _
    have hp : place ((Sys.new cfg).run []).1.q id = .gone := rfl
    rw [hp]; simp [Sys.run, delivered, deliveries, leftAt]
  · intro es e ih hv hm hmono hcl
    obtain ⟨hcl1, hcl2⟩ := CleanRestarts.append.1 hcl
    have hi := ih hv.left (fun x hx => hm x (List.mem_append_left _ hx))
      (fun t now ⟨r, hr⟩ => hmono t now ⟨r ++ [e], by rw [hr]; simp⟩) hcl1
    obtain ⟨a, ha⟩ := (sysInv cfg hv.left).q
    have hcfg : ((Sys.new cfg).run es).1.q.cfg = cfg := Sys.run_cfg es _
    rw [delivered_append, restarts_append, eventIds_append, List.count_append, Nat.mul_add]
    cases e with
    | op o =>
      rw [Sys.run_append]
      simp only [Sys.run, Sys.step, Option.toList_some, deliveries, List.flatMap_cons, List.flatMap_nil, List.append_nil, eventIds, Nat.add_zero]
      obtain ⟨s1, s2, s3⟩ := ha.stepU (op := o) (hv.1 (.op o) (by simp)) (fun i hi => (hv.right).2 i (by simpa [eventIds] using hi))
      have hop : o.req ≠ .moveToQueue id := by
        have := hm (.op o) (by simp)
        intro hc
        apply this
        cases o <;> simp only [Op.req, Spec.Queue.Req.moveToQueue.injEq, reduceCtorEq] at hc
        rw [hc]
      have b1 := Spec.Queue.budget_step (vt := cfg.visibilityTimeout) (mr := cfg.maxRetries) (tr := timeoutReason) (q := a) o.req hop
      rw [addedBy_pushId, budget_place ha] at b1
      have b2 := budget_place s1 cfg.maxRetries id
      rw [s3]
      simp only [sstep, hcfg] at b2 ⊢
      rw [b2] at b1
      omega
    | commit n =>
      rw [Sys.run_append]
      simp only [Sys.run, Sys.step, Option.toList_none, deliveries, List.flatMap_nil, List.count_nil, eventIds, Nat.add_zero, Nat.mul_zero]
      exact hi
    | restart now =>
      have hpend := hcl2.1 ⟨now, rfl⟩
      have inv := sysInv cfg hv.left
      have hag := inv.agree
      rw [hpend] at hag
      have hp := place_recover ha (regI cfg es hv.left) (hmono es now ⟨[], rfl⟩) hag inv.db cfg id rfl
      rw [Sys.run_append]
      simp only [Sys.run, Sys.step, Option.toList_none, deliveries, List.flatMap_nil, List.count_nil, eventIds, Nat.add_zero, Nat.mul_zero, hcfg]
      rw [hp]
      have := leftAt_restart cfg.maxRetries now (place ((Sys.new cfg).run es).1.q id)
      omega

/-- Deliveries over any history: the full number for each run of the process. -/
theorem delivered_any (cfg : Config) (id : Id) : ∀ es, ValidHist es → (∀ e ∈ es, e ≠ .op (.moveToQueue id)) →
    delivered id ((Sys.new cfg).run es).2 + leftAt cfg.maxRetries (place ((Sys.new cfg).run es).1.q id) ≤
      max 1 cfg.maxRetries * (eventIds es).count id * (restarts es + 1) := by
  refine hist_induction ?_ ?_
  · intro _ _
    have hp : place ((Sys.new cfg).run []).1.q id = .gone := rfl
    rw [hp]; simp [Sys.run, delivered, deliveries, leftAt]
  · intro es e ih hv hm
    have hi := ih hv.left (fun x hx => hm x (List.mem_append_left _ hx))
    obtain ⟨a, ha⟩ := (sysInv cfg hv.left).q
    have hcfg : ((Sys.new cfg).run es).1.q.cfg = cfg := Sys.run_cfg es _
    rw [delivered_append, restarts_append, eventIds_append, List.count_append]
    cases e with
    | op o =>
      rw [Sys.run_append]
      simp only [Sys.run, Sys.step, Option.toList_some, deliveries, List.flatMap_cons, List.flatMap_nil, List.append_nil, eventIds, Nat.add_zero]
      obtain ⟨s1, s2, s3⟩ := ha.stepU (op := o) (hv.1 (.op o) (by simp)) (fun i hi => (hv.right).2 i (by simpa [eventIds] using hi))
      have hop : o.req ≠ .moveToQueue id := by
        have := hm (.op o) (by simp)
        intro hc
        apply this
        cases o <;> simp only [Op.req, Spec.Queue.Req.moveToQueue.injEq, reduceCtorEq] at hc
        rw [hc]
      have b1 := Spec.Queue.budget_step (vt := cfg.visibilityTimeout) (mr := cfg.maxRetries) (tr := timeoutReason) (q := a) o.req hop
      rw [addedBy_pushId, budget_place ha] at b1
      have b2 := budget_place s1 cfg.maxRetries id
      rw [s3]
      simp only [sstep, hcfg] at b2 ⊢
      rw [b2] at b1
      have hmul : max 1 cfg.maxRetries * ((eventIds es).count id + o.pushId.count id) * (restarts es + 1) ≥
          max 1 cfg.maxRetries * (eventIds es).count id * (restarts es + 1) + max 1 cfg.maxRetries * o.pushId.count id := by
        rw [Nat.mul_add _ (List.count id (eventIds es)), Nat.add_mul]
        apply Nat.add_le_add_left
        exact Nat.le_mul_of_pos_right _ (Nat.succ_pos _)
      omega
    | commit n =>
      rw [Sys.run_append]
      simp only [Sys.run, Sys.step, Option.toList_none, deliveries, List.flatMap_nil, List.count_nil, eventIds, Nat.add_zero]
      exact hi
    | restart now =>
      have inv := sysInv cfg hv.left
      obtain ⟨r1, _, _⟩ := RQ.recover inv.db cfg now
      rw [Sys.run_append]
      simp only [Sys.run, Sys.step, Option.toList_none, deliveries, List.flatMap_nil, List.count_nil, eventIds, Nat.add_zero, hcfg]
      rw [← budget_place r1]
      by_cases hu : id ∈ eventIds es
      · have hc : (eventIds es).count id ≥ 1 := List.count_pos_iff.2 hu
        have hb := Spec.Queue.budget_le (mr := cfg.maxRetries) (id := id) r1.view.distinct
        have : max 1 cfg.maxRetries * (eventIds es).count id * (restarts es + 1 + 1) ≥
            max 1 cfg.maxRetries * (eventIds es).count id * (restarts es + 1) + max 1 cfg.maxRetries := by
          rw [Nat.mul_add _ (restarts es + 1) 1, Nat.mul_one]
          apply Nat.add_le_add_left
          exact Nat.le_mul_of_pos_right _ hc
        omega
      · have hz : Spec.Queue.budget cfg.maxRetries id (recovered now ((Sys.new cfg).run es).1.db) = 0 :=
          Spec.Queue.budget_zero (fun hh => hu (r1.ids_used hh))
        have hc : (eventIds es).count id = 0 := List.count_eq_zero.2 hu
        rw [hz, hc]
        rw [hc] at hi
        simp only [Nat.mul_zero, Nat.zero_mul] at hi ⊢
        omega

/-! ### Overlapping requests -/

theorem entry_project {id : Id} : ∀ (L : List StorageOp) (db : DB),
    entry (execAll db L) id = entry (execAll db (L.filter (touches id))) id := by
  have cong : ∀ (L : List StorageOp) (db db' : DB), entry db id = entry db' id → entry (execAll db L) id = entry (execAll db' L) id := by
    intro L
    induction L with
    | nil => intro db db' h; exact h
    | cons op t ih =>
      intro db db' h
      simp only [execAll, List.foldl_cons] at ih ⊢
      apply ih
      by_cases ht : touches id op = true
      · simp only [entry, Prod.mk.injEq] at h
        have hins : ∀ {V : Type} {x y : List (Id × V)} (i : Id) (v : V), mget x id = mget y id → mget (insertRow x i v) id = mget (insertRow y i v) id := by
          intro V x y i v hxy
          by_cases hi : i = id
          · subst hi
            unfold insertRow
            have hh : mhas x i = mhas y i := by
              rw [Bool.eq_iff_iff, mhas_iff, mhas_iff, ← mget_isSome, ← mget_isSome, hxy]
            rw [hh]
            split
            · exact hxy
            · rw [mget_append, mget_append, hxy]
          · rw [mget_insertRow_ne hi, mget_insertRow_ne hi, hxy]
        cases op <;> simp only [entry, execOp, mget_mdel, mget_mupd, h.1, h.2, Prod.mk.injEq, and_true, true_and]
        case insert m => exact hins _ _ h.1
        case insertDlq m => exact hins _ _ h.2
        case moveToDlq i m => exact hins _ _ h.2
        case moveToMain i m => exact hins _ _ h.1
      · have ht' : touches id op = false := by simpa using ht
        rw [entry_exec_ne ht', entry_exec_ne ht', h]
  intro L
  induction L with
  | nil => intro db; rfl
  | cons op t ih =>
    intro db
    rw [List.filter_cons]
    split
    · simp only [execAll, List.foldl_cons] at ih ⊢
      exact ih _
    · next hn =>
      have h1 : entry (execAll db (op :: t)) id = entry (execAll db t) id := by
        simp only [execAll, List.foldl_cons]
        exact cong t _ _ (entry_exec_ne (by simpa using hn))
      rw [h1]; exact ih db

theorem DBI.of_entries {db db' : DB} {used : Id → Prop} (h : DBI db used) (he : ∀ id, entry db' id = entry db id)
    (wm : MWF db'.main) (wd : MWF db'.dlq) (hk : ∀ e ∈ db'.dlq, e.1 = e.2.id) : DBI db' used := by
  have k1 : ∀ id, id ∈ mkeys db'.main ↔ id ∈ mkeys db.main := by
    intro id
    have := congrArg Prod.fst (he id)
    simp only [entry] at this
    rw [← mget_isSome, ← mget_isSome, this]
  have k2 : ∀ id, id ∈ mkeys db'.dlq ↔ id ∈ mkeys db.dlq := by
    intro id
    have := congrArg Prod.snd (he id)
    simp only [entry] at this
    rw [← mget_isSome, ← mget_isSome, this]
  exact ⟨wm, wd, hk, fun id hid hm => h.disj id ((k2 id).1 hid) ((k1 id).1 hm), fun id hid => h.um id ((k1 id).1 hid),
    fun id hid => h.ud id ((k2 id).1 hid)⟩

theorem insertRow_wf {V : Type} {t : List (Id × V)} (h : MWF t) (i : Id) (v : V) : MWF (insertRow t i v) := by
  unfold insertRow
  split
  · exact h
  · next hn =>
    have : i ∉ mkeys t := fun hh => hn (mhas_iff.2 hh)
    rw [← mset_of_not_mem v this]
    exact h.mset _ _

theorem execAll_wf : ∀ (L : List StorageOp) {db : DB}, MWF db.main → MWF db.dlq → (∀ e ∈ db.dlq, e.1 = e.2.id) →
    MWF (execAll db L).main ∧ MWF (execAll db L).dlq ∧ (∀ e ∈ (execAll db L).dlq, e.1 = e.2.id) := by
  intro L
  induction L with
  | nil => intro db h1 h2 h3; exact ⟨h1, h2, h3⟩
  | cons op t ih =>
    intro db h1 h2 h3
    have hins : ∀ (m : DlqMsg), ∀ e ∈ insertRow db.dlq m.id m, e.1 = e.2.id := by
      intro m e he
      unfold insertRow at he
      split at he
      · exact h3 e he
      · rcases List.mem_append.1 he with he | he
        · exact h3 e he
        · rw [List.mem_singleton.1 he]
    have hdel : ∀ (i : Id), ∀ e ∈ mdel db.dlq i, e.1 = e.2.id := fun i e he => h3 e (List.mem_filter.1 he).1
    simp only [execAll, List.foldl_cons] at ih ⊢
    cases op with
    | insert m => exact ih (by simp only [execOp]; exact insertRow_wf h1 _ _) h2 h3
    | delete i => exact ih (by simp only [execOp]; exact h1.mdel _) h2 h3
    | updateState i v a => exact ih (by simp only [execOp]; exact MWF.mupd h1 _ _) h2 h3
    | insertDlq m => exact ih h1 (by simp only [execOp]; exact insertRow_wf h2 _ _) (by simp only [execOp]; exact hins m)
    | deleteDlq i => exact ih h1 (by simp only [execOp]; exact h2.mdel _) (by simp only [execOp]; exact hdel i)
    | moveToDlq i m =>
      exact ih (by simp only [execOp]; exact h1.mdel _) (by simp only [execOp]; exact insertRow_wf h2 _ _) (by simp only [execOp]; exact hins m)
    | moveToMain i m =>
      exact ih (by simp only [execOp]; exact insertRow_wf h1 _ _) (by simp only [execOp]; exact h2.mdel _) (by simp only [execOp]; exact hdel i)
    | purgeDlq => exact ih h1 (by simp only [execOp]; exact MWF.nil) (by simp [execOp])

theorem raceOps_append : ∀ (a b : List RaceEvent), raceOps (a ++ b) = raceOps a ++ raceOps b := by
  intro a
  induction a with
  | nil => intro b; rfl
  | cons e t ih => intro b; cases e <;> simp [raceOps, ih]

theorem Race.run_append : ∀ (a b : List RaceEvent) (s : Race), (s.run (a ++ b)).1 = ((s.run a).1.run b).1 := by
  intro a
  induction a with
  | nil => intro b s; rfl
  | cons e t ih => intro b s; simp only [List.cons_append, Race.run]; exact ih b _

theorem race_sim (cfg : Config) : ∀ (es : List RaceEvent), (∀ e ∈ es, ∀ now, e ≠ .restart now) →
    let r := ((Race.new cfg).run es).1
    let s := ((Sys.new cfg).run (raceOps es)).1
    r.q = s.q ∧ r.log = sent (Sys.new cfg) (raceOps es) ∧ execAll r.db r.pending = execAll DB.empty r.arrived ∧
    s.db = DB.empty ∧ s.pending = sent (Sys.new cfg) (raceOps es) := by
  have ind : ∀ {P : List RaceEvent → Prop} (h0 : P []) (h1 : ∀ es e, P es → P (es ++ [e])), ∀ es, P es := by
    intro P h0 h1
    have : ∀ n es, es.length = n → P es := by
      intro n
      induction n with
      | zero => intro es h; rw [List.length_eq_zero_iff.1 h]; exact h0
      | succ n ih =>
        intro es h
        have hne : es ≠ [] := by intro hh; rw [hh] at h; simp at h
        rw [← List.dropLast_concat_getLast hne]
        refine h1 _ _ (ih _ ?_)
        rw [List.length_dropLast, h]; rfl
    exact fun es => this _ es rfl
  refine ind ?_ ?_
  · intro _; exact ⟨rfl, rfl, rfl, rfl, rfl⟩
  · intro es e ih hn
    obtain ⟨h1, h2, h3, h4, h5⟩ := ih (fun x hx => hn x (List.mem_append_left _ hx))
    rw [raceOps_append, Race.run_append, Sys.run_append, sent_append]
    generalize ((Race.new cfg).run es).1 = r at *
    generalize hs : ((Sys.new cfg).run (raceOps es)).1 = s at *
    cases e with
    | op o =>
      simp only [Race.run, Race.step, raceOps, Sys.run, Sys.step, sent, sentBy, List.append_nil]
      rw [h1]
      exact ⟨rfl, by rw [h2], h3, h4, by rw [h5]⟩
    | send i =>
      simp only [Race.run, raceOps, Sys.run, sent, List.append_nil]
      simp only [Race.step]
      split
      · exact ⟨h1, h2, by simp only [execAll_append, h3], h4, h5⟩
      · exact ⟨h1, h2, h3, h4, h5⟩
    | commit n =>
      simp only [Race.run, Race.step, raceOps, Sys.run, sent, List.append_nil]
      refine ⟨h1, h2, ?_, h4, h5⟩
      rw [← execAll_append, List.take_append_drop]; exact h3
    | restart now => exact absurd rfl (hn _ (List.mem_append_right _ (List.mem_singleton.2 rfl)) now)

end Verif.Queue
