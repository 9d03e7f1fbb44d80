import Verif.Proofs.StreamStorm
import Verif.Proofs.StreamRestart

/-!
# Lemmas about the streams behind the network across crashes: a topic between two crashes
-/

namespace Verif.Stream

variable {crc : Bytes → Nat} {base : Nat} {H : List Msg} {now : Nat} {t : Topic}

/-- A run that ends with a clean stop is followed by an orderly start; what was flushed is there. -/
theorem StartsWith.resume (hst : StartsWith crc base H now t) (es : List Ev) (ho : Orderly now t es)
    (hc : CleanStop crc (t.run crc es).disk) :
    ∃ base' H', InFiles crc ((t.run crc es).cfg.retention.maxAge ≠ none) base' H' (clockAfter now es) { (t.run crc es).disk with writers := [] }
      ∧ (t.run crc es).log.head ≤ base'
      ∧ (∀ m ∈ H ++ published t.log.next es, m.seq ≤ (t.run crc es).persisted → m ∈ H' ∨ m.seq < base')
      ∧ ∀ m ∈ H', m ∈ H ++ published t.log.next es := by
  obtain ⟨hi, hb, f, W, hd⟩ := hst.run es ho
  have hlow := hd.low
  obtain ⟨D, h1, h2, h3⟩ := hd.disk.clean hd.fitsW hd.numW (by omega) hc
  refine ⟨f, W.take D, h3.noWriters, hd.headHigh, fun m hm hp => ?_, fun m hm => hd.mem_log (List.mem_of_mem_take hm)⟩
  by_cases hf : m.seq < f
  · exact .inr hf
  · exact .inl (hd.flushedAt hm (by omega) h1 (by omega))

/-- Steps that all take place at the same time. -/
theorem forward_at {T : Nat} : ∀ {es : List Ev} {c : Nat}, (∀ e ∈ es, e.time = none ∨ e.time = some T) → c ≤ T →
    Forward c es ∧ clockAfter c es ≤ T := by
  intro es
  induction es with
  | nil => intro c _ hc; exact ⟨trivial, hc⟩
  | cons e es ih =>
    intro c h hc
    have h' : ∀ e ∈ es, e.time = none ∨ e.time = some T := fun e he => h e (List.mem_cons_of_mem _ he)
    rcases h e List.mem_cons_self with he | he
    · simp only [Forward, clockAfter, he, Option.getD_none]
      obtain ⟨h1, h2⟩ := ih h' hc
      exact ⟨⟨Nat.le_refl _, h1⟩, h2⟩
    · simp only [Forward, clockAfter, he, Option.getD_some]
      obtain ⟨h1, h2⟩ := ih h' (Nat.le_refl T)
      exact ⟨⟨hc, h1⟩, h2⟩

/-- Steps that do not look at the clock. -/
theorem forward_none : ∀ {es : List Ev} {c : Nat}, (∀ e ∈ es, e.time = none) → Forward c es ∧ clockAfter c es = c := by
  intro es
  induction es with
  | nil => intro c _; exact ⟨trivial, rfl⟩
  | cons e es ih =>
    intro c h
    have he := h e List.mem_cons_self
    obtain ⟨h1, h2⟩ := ih (c := c) (fun e he => h e (List.mem_cons_of_mem _ he))
    simp only [Forward, clockAfter, he, Option.getD_none]
    exact ⟨⟨Nat.le_refl _, h1⟩, h2⟩

/-! ### Head and flushed mark only move forward -/

theorem head_step (hr : ∀ h, t.retain = .outcome h → t.log.head ≤ h) (crc : Bytes → Nat) (e : Ev) : t.log.head ≤ (t.step crc e).1.log.head := by
  by_cases hw : e.writes = false
  · rw [(step_dframe t crc e hw).log]; exact Nat.le_refl _
  cases e with
  | publish ts p => exact Nat.le_refl _
  | send i => simp only [Topic.step]; split <;> exact Nat.le_refl _
  | evictLoad => exact Nat.le_refl _
  | evictRun => simp only [Topic.step]; split <;> exact Nat.le_refl _
  | retainSend => simp only [Topic.step]; split <;> exact Nat.le_refl _
  | retainDone =>
    simp only [Topic.step]
    split
    · next h hh =>
      have := hr h hh
      unfold Topic.applyOutcome
      split
      · simp only [Log.applyHead]; omega
      · exact Nat.le_refl _
    · exact Nat.le_refl _
  | storage now =>
    simp only [Topic.step]
    split
    · exact Nat.le_refl _
    · next c cs _ => cases c <;> exact Nat.le_refl _
  | flush now => simp only [Topic.step, Topic.flushAll]; split <;> exact Nat.le_refl _
  | leak s n now => exact Nat.le_refl _
  | closeHandle s now => exact Nat.le_refl _
  | _ => exact absurd rfl hw

theorem StartsWith.mono (hst : StartsWith crc base H now t) (es es' : List Ev) (ho : Orderly now t (es ++ es')) :
    (t.run crc es).log.head ≤ (t.run crc (es ++ es')).log.head ∧ (t.run crc es).persisted ≤ (t.run crc (es ++ es')).persisted := by
  induction es' using Sdk.snoc_ind with
  | h0 => rw [List.append_nil]; exact ⟨Nat.le_refl _, Nat.le_refl _⟩
  | h1 es' e ih =>
    rw [← List.append_assoc] at ho ⊢
    obtain ⟨h1, h2⟩ := ih ho.prefix
    obtain ⟨hi, _, f, W, hd⟩ := hst.run (es ++ es') ho.prefix
    obtain ⟨_, _, _, hp, _⟩ := hd.run hi [e] (ho.suffix (run_next ..))
    rw [run_append crc (es ++ es')]
    refine ⟨Nat.le_trans h1 ?_, Nat.le_trans h2 hp⟩
    refine head_step (fun h hh => ?_) crc e
    rw [hd.ret h hh]; exact hd.headHigh

/-- The groups in the progress file, and in its versions still to be written, have valid names. -/
structure FileNames (crc : Bytes → Nat) (lossy : Bytes → Str) (t : Topic) : Prop where
  file : ∀ g f, progress crc lossy g t.disk.groups = some f → NameOk lossy g
  chan : ∀ d, SCmd.save d ∈ t.chan → ∀ g f, progress crc lossy g (some (groupsFile crc d)) = some f → NameOk lossy g

theorem FileNames.step {lossy : Bytes → Str} (h : FileNames crc lossy t) (hn : Named (NameOk lossy) t.groups) (e : Ev) :
    FileNames crc lossy (t.step crc e).1 := by
  cases saves_step crc t e with
  | same cs hc hno hd =>
    refine ⟨fun g f hf => h.file g f (by rw [← hd]; exact hf), fun d hdm => ?_⟩
    rw [hc] at hdm
    rcases List.mem_append.1 hdm with hm | hm
    · exact h.chan d hm
    · exact absurd hm (hno d)
  | save order he _ d hp hc hd =>
    refine ⟨fun g f hf => h.file g f (by rw [← hd]; exact hf), fun d' hdm g f hf => ?_⟩
    rw [hc] at hdm
    rcases List.mem_append.1 hdm with hm | hm
    · exact h.chan d' hm g f hf
    · simp only [List.mem_singleton, SCmd.save.injEq] at hm
      subst hm
      rw [progress_written hn hp] at hf
      cases hg : mget t.groups g with
      | none => rw [hg] at hf; cases hf
      | some y => exact hn.has hg
  | handled now he c hc hno hd =>
    refine ⟨fun g f hf => h.file g f (by rw [← hd]; exact hf), fun d hdm g f hf => h.chan d ?_ g f hf⟩
    rw [hc]; exact List.mem_cons_of_mem _ hdm
  | written now he d hc hd =>
    refine ⟨fun g f hf => h.chan d (by rw [hc]; exact List.mem_cons_self) g f (by rw [← hd]; exact hf),
      fun d' hdm g f hf => h.chan d' ?_ g f hf⟩
    rw [hc]; exact List.mem_cons_of_mem _ hdm

theorem FileNames.run {lossy : Bytes → Str} (es : List Ev) : ∀ {t : Topic}, FileNames crc lossy t → Named (NameOk lossy) t.groups →
    (∀ e ∈ es, ∀ n, e.creates = some n → NameOk lossy n) → FileNames crc lossy (t.run crc es) := by
  induction es with
  | nil => intro t h _ _; exact h
  | cons e es ih =>
    intro t h hn he
    exact ih (h.step hn e) (hn.step crc e (he e List.mem_cons_self)) (fun e' h' => he e' (List.mem_cons_of_mem _ h'))

end Verif.Stream

namespace Verif.Rpc

open Verif Verif.Wire Verif.Sdk
open Verif.Stream (Topic GErr Query Msg)

variable {E I : Type} {env : Env} {lossy : Bytes → Str} {bg : I → Option Job}

section

variable {n : Str} {A u v w w₁ w₂ : List (Act I)} {o : StreamOpts} {t : Topic}

/-- The answer to a command on a topic. -/
theorem Weathered.answer (ht : Weathered env lossy bg A) {l now : Nat} {cmd : Cmd} {r : Option Response} (hs : A = w₁ ++ .did l cmd now r :: w₂)
    (hq : isStream cmd = true) (hn : onTopic cmd = some n) (h : mget (Streams.lived env lossy bg w₁).topics n = some t) :
    r = streamAnswer t.log.next (Outs env.crc t (streamSteps env (w₁.countP isStreamAct) l now t cmd)) cmd := by
  have h1 := (ht.exec _ _ _ _ _ _ hs hq).1
  rw [h1]
  cases cmd with
  | sCreate => cases hn
  | sDelete => cases hn
  | sExists => cases hn
  | sPub | sFetch | sJoin | sAck | sSeek | sLeave =>
    simp only [onTopic, Option.some.injEq] at hn
    subst hn
    simp only [streamExec, onTopic, h, lived_count]
  | _ => cases hq

/-- The answer to a command on a topic that is not there. -/
theorem Weathered.missing (ht : Weathered env lossy bg A) {l now : Nat} {cmd : Cmd} {r : Option Response} (hs : A = w₁ ++ .did l cmd now r :: w₂)
    (hq : isStream cmd = true) (hn : onTopic cmd = some n) (h : mget (Streams.lived env lossy bg w₁).topics n = none) :
    r = some (.error (ascii "Topic not found")) := by
  have h1 := (ht.exec _ _ _ _ _ _ hs hq).1
  rw [h1]
  cases cmd with
  | sCreate => cases hn
  | sDelete => cases hn
  | sExists => cases hn
  | sPub | sFetch | sJoin | sAck | sSeek | sLeave =>
    simp only [onTopic, Option.some.injEq] at hn
    subst hn
    simp only [streamExec, onTopic, h]
  | _ => cases hq

/-- A command on a topic that is answered otherwise than by "not found" is about a topic that was created. -/
theorem Weathered.risen (ht : Weathered env lossy bg A) {l now : Nat} {cmd : Cmd} {r : Option Response} (hs : A = w₁ ++ .did l cmd now r :: w₂)
    (hq : isStream cmd = true) (hn : onTopic cmd = some n) (hr : ∀ e, r ≠ some (.error e)) : ∃ u o v, Risen env lossy bg n w₁ u o v := by
  cases h : mget (Streams.lived env lossy bg w₁).topics n with
  | none => exact absurd (ht.missing hs hq hn h) (hr _)
  | some t => exact life_risen h

/-- Topics have simple names. -/
theorem Weathered.simple (ht : Weathered env lossy bg A) (hw : w <+: A) {t : Topic} (h : mget (Streams.lived env lossy bg w).topics n = some t) :
    Paths.Simple n := by
  obtain ⟨u, o, v, ⟨l, now, r, hs⟩, _, _⟩ := life_risen h
  obtain ⟨z, rfl⟩ := hw
  exact ht.calm.names l n o now r (by rw [hs]; simp)

/-! ### What happened since the last crash -/

/-- A topic since the last crash: the messages in its files then (from number `base` on), the time, its files, the topic as it was
loaded, and what happened since. -/
structure Era where
  base : Nat
  msgs : List Msg
  since : Nat
  files : Stream.Disk
  start : Topic
  steps : List Stream.Ev

/-- The topic now. -/
def Era.topic (env : Env) (x : Era) : Topic := x.start.run env.crc x.steps

/-- The messages that were in the files and those that were published since. -/
def Era.all (x : Era) : List Msg := x.msgs ++ Stream.published x.start.log.next x.steps

/-- The history `x` is that of topic `n`, created with options `o` before the acts `v` of the run `w`. -/
structure Current (env : Env) (lossy : Bytes → Str) (bg : I → Option Job) (n : Str) (o : StreamOpts) (w v : List (Act I)) (x : Era) : Prop where
  files : Stream.InFiles env.crc (x.start.cfg.retention.maxAge ≠ none) x.base x.msgs x.since x.files
  built : x.start = Topic.build env.crc x.start.cfg lossy x.files
  cfg : x.start.cfg = topicCfg env.sys o
  now : mget (Streams.lived env lossy bg w).topics n = some (x.topic env)
  orderly : Stream.Orderly x.since x.start x.steps
  clock : Stream.clockAfter x.since x.steps ≤ clockOf bg w
  nodup : ∀ g, (Stream.joinIds g x.steps).Nodup
  ids : ∀ g c, c ∈ Stream.joinIds g x.steps → ∃ j, j < w.countP isStreamAct ∧ c = env.consumer j
  source : ∀ m ∈ x.all, ∃ v₁ l v₂, v = v₁ ++ .did l (.sPub n m.payload) m.timestamp (some (.data (wireSeq m.seq))) :: v₂ ∧
    ∀ a ∈ v₂, ¬ numbered n m.seq a
  bound : (x.topic env).log.next ≤ 1 + v.countP (publishes n)
  named : Stream.Named (Stream.NameOk lossy) x.start.groups
  creates : ∀ e ∈ x.steps, ∀ g, e.creates = some g → Stream.NameOk lossy g
  len : v.length ≤ w.length
  saved : Stream.FileNames env.crc lossy x.start

theorem Current.starts {x : Era} (h : Current env lossy bg n o w v x) : Stream.StartsWith env.crc x.base x.msgs x.since x.start :=
  ⟨lossy, x.files, h.files, h.built⟩

theorem Current.started {x : Era} (h : Current env lossy bg n o w v x) (hd : 1 ≤ env.sys.maxDeliveries) : Stream.Started env.crc x.start := by
  refine h.starts.started ?_
  rw [h.cfg]; exact hd

/-- The first era of a topic. -/
def firstEra (env : Env) (o : StreamOpts) : Era :=
  { base := 1, msgs := [], since := 0, files := { segs := [], writers := [], groups := none }, start := newTopic env o, steps := [] }

/-- The next era of a topic, without crash. -/
def Era.on (env : Env) (bg : I → Option Job) (n : Str) (w : List (Act I)) (a : Act I) (x : Era) : Era :=
  { x with steps := x.steps ++ actSteps env (stepOf bg) n (w.countP isStreamAct) (x.topic env) a }

/-- The era of a topic that begins with a crash. -/
def Era.crashed (env : Env) (lossy : Bytes → Str) (base : Nat) (msgs : List Msg) (x : Era) : Era :=
  { base := base, msgs := msgs, since := Stream.clockAfter x.since x.steps, files := { (x.topic env).disk with writers := [] },
    start := (x.topic env).restart env.crc lossy, steps := [] }

/-- How eras follow each other. -/
theorem Weathered.first (ht : Weathered env lossy bg A) (hw : w <+: A) (h : Risen env lossy bg n w u o []) :
    Current env lossy bg n o w [] (firstEra env o) := by
  obtain ⟨l, now, r, hs⟩ := h.split
  subst hs
  refine ⟨?_, rfl, rfl, ?_, ⟨?_, fun _ => trivial, ?_⟩, Nat.zero_le _, fun g => List.nodup_nil, ?_, ?_, Nat.le_refl _, ?_, ?_, Nat.zero_le _, ?_⟩
  · refine ⟨⟨[], ⟨rfl, rfl, by simp⟩, rfl, by simp, fun _ => rfl⟩, Nat.le_refl 1, ?_, by simp [firstEra], by simp [firstEra], by simp [firstEra]⟩
    intro i m h; simp [firstEra] at h
  · rcases lived_absent h.new (.did l (.sCreate n o) now r) with ⟨l', o', now', r', he, h'⟩ | h'
    · injection he with _ he _ _
      injection he with _ he
      subst he
      exact h'
    · rw [lived_snoc] at h'
      simp [Streams.live, isStream, streamExec, mhas, h.new, mget_mset_same] at h'
  · intro i hi; cases hi
  · intro m hm; cases hm
  · intro g c hc; cases hc
  · intro m hm; cases hm
  · exact ⟨List.nodup_nil, fun m hm => by cases hm⟩
  · intro e he; cases he
  · exact ⟨fun g f hf => (by cases hf), fun d hd => (by cases hd)⟩

theorem clockOf_snoc (w : List (Act I)) (a : Act I) : clockOf bg (w ++ [a]) = (actTime bg a).getD (clockOf bg w) := by
  simp [clockOf]

theorem step_time {k : Nat} {a : Act I} {e : Stream.Ev} (h : Source env (stepOf bg) n k a e) : e.time = none ∨ e.time = actTime bg a := by
  cases h with
  | work l g c gen lim w now r id e hw => rcases hw with rfl | rfl | rfl | rfl <;> first | (left; rfl) | (right; rfl)
  | task x e hx => right; simp [actTime, hx]
  | _ => left; rfl

theorem Weathered.goes (ht : Weathered env lossy bg A) {a : Act I} (hs : A = w ++ a :: w₂) (ha : ¬ breaks bg a) (hd : ¬ dropsTopic n a) {x : Era}
    (h : Current env lossy bg n o w v x) : Current env lossy bg n o (w ++ [a]) (v ++ [a]) (x.on env bg n w a) := by
  have hmem : a ∈ A := by rw [hs]; simp
  generalize hst : actSteps env (stepOf bg) n (w.countP isStreamAct) (x.topic env) a = st
  have hx : x.on env bg n w a = { x with steps := x.steps ++ st } := by unfold Era.on; rw [hst]
  have hsrc : ∀ e ∈ st, Source env (stepOf bg) n (w.countP isStreamAct) a e := fun e he => source (hst ▸ he)
  have htop : (x.on env bg n w a).topic env = (x.topic env).run env.crc st := by
    rw [hx]; simp only [Era.topic, Stream.run_append]
  have hclock : Stream.Forward (Stream.clockAfter x.since x.steps) st ∧ Stream.clockAfter (Stream.clockAfter x.since x.steps) st ≤ clockOf bg (w ++ [a]) := by
    rw [clockOf_snoc]
    have hc := ht.calm.clock w a w₂ hs
    have hc' := h.clock
    cases hT : actTime bg a with
    | none =>
      obtain ⟨h1, h2⟩ := Stream.forward_none (es := st) (c := Stream.clockAfter x.since x.steps) (fun e he => by
        rcases step_time (hsrc e he) with h | h
        · exact h
        · rw [h, hT])
      rw [h2]
      exact ⟨h1, hc'⟩
    | some T =>
      rw [hT, Option.getD_some] at hc
      exact Stream.forward_at (T := T) (fun e he => by
        have := step_time (hsrc e he)
        rw [hT] at this
        exact this) (Nat.le_trans hc' hc)
  have hpub : (Stream.published (x.topic env).log.next st = [] ∧ publishes n a = false) ∨
      ∃ l pl ts, a = .did l (.sPub n pl) ts (some (.data (wireSeq (x.topic env).log.next))) ∧
        Stream.published (x.topic env).log.next st = [⟨(x.topic env).log.next, ts, pl⟩] ∧ publishes n a = true := by
    by_cases hp : ∃ l pl ts r, a = .did l (.sPub n pl) ts r
    · obtain ⟨l, pl, ts, r, rfl⟩ := hp
      have hr := ht.answer hs rfl rfl h.now
      right
      refine ⟨l, pl, ts, by rw [hr]; rfl, ?_, ?_⟩
      · rw [← hst]; simp [actSteps, onTopic, streamSteps, Stream.published]
      · rw [hr]; simp [publishes, streamAnswer]
    · left
      refine ⟨published_sources _ _ (fun ts pl hm => ?_), ?_⟩
      · obtain ⟨l, r, rfl⟩ := publish_source ht.tasks (hst ▸ hm)
        exact hp ⟨l, pl, ts, r, rfl⟩
      · cases a with
        | ticked x => rfl
        | did l cmd ts r =>
          cases cmd with
          | sPub m pl =>
            have hm : m ≠ n := by rintro rfl; exact hp ⟨l, pl, ts, r, rfl⟩
            cases r with
            | none => rfl
            | some r => cases r <;> first | rfl | exact decide_eq_false hm
          | _ => rfl
  have hnext : x.start.log.next + (Stream.published x.start.log.next x.steps).length = (x.topic env).log.next := (Stream.run_next ..).symm
  have hall : Stream.published x.start.log.next (x.steps ++ st) = Stream.published x.start.log.next x.steps ++ Stream.published (x.topic env).log.next st := by
    rw [Stream.published_append, hnext]
  have hlt : (x.topic env).log.next < 2 ^ 64 := by
    have h1 := h.bound
    have h2 := ht.small.length
    have h3 : v.countP (publishes n) ≤ v.length := List.countP_le_length
    have h4 := h.len
    rw [hs, List.length_append, List.length_cons] at h2
    omega
  have hjoin : ∀ g, Stream.joinIds g (x.steps ++ st) = Stream.joinIds g x.steps ++ Stream.joinIds g st := fun g => joinIds_append g _ _
  have hj : ∀ g, Stream.joinIds g st = [] ∨ (Stream.joinIds g st = [env.consumer (w.countP isStreamAct)] ∧ isStreamAct a = true) := by
    intro g
    have := joins_act (env := env) ht.tasks n g (w.countP isStreamAct) (x.topic env) a
    rw [hst] at this
    exact this
  have hcnt : (w ++ [a]).countP isStreamAct = w.countP isStreamAct + if isStreamAct a then 1 else 0 := by
    rw [List.countP_append, List.countP_singleton]
  have hcA : (w ++ [a]).countP isStreamAct ≤ A.countP isStreamAct := by
    rw [hs, show w ++ a :: w₂ = (w ++ [a]) ++ w₂ by simp, List.countP_append (l₁ := w ++ [a])]; omega
  refine ⟨?_, ?_, ?_, ?_, ⟨?_, ?_, ?_⟩, ?_, ?_, ?_, ?_, ?_, ?_, ?_, by simp [h.len], ?_⟩
  · rw [hx]; exact h.files
  · rw [hx]; exact h.built
  · rw [hx]; exact h.cfg
  · rcases lived_topic (ht.simple ⟨_, hs.symm⟩ h.now) h.now hd with ⟨_, hb⟩ | ⟨h', _⟩
    · exact absurd hb ha
    · rw [h', htop, hst]
  · intro i hi
    rw [hx] at hi
    rcases List.mem_append.1 hi with hi | hi
    · exact h.orderly.inOrder i hi
    · have hq := hsrc _ hi
      cases hq with
      | work _ _ _ _ _ _ _ _ id _ hw => rcases hw with hw | hw | hw | hw <;> cases hw
      | task y _ hy =>
        unfold stepOf at hy
        split at hy
        · next m e hb =>
          injection hy with hy; injection hy with h1 h2; subst h1 h2
          exact ht.calm.inOrder y _ i hmem hb
        · cases hy
  · intro hag
    rw [hx] at hag ⊢
    exact Stream.Forward.append.2 ⟨h.orderly.clock hag, hclock.1⟩
  · intro m hm
    rw [hx] at hm
    simp only [hall] at hm
    rcases List.mem_append.1 hm with hm | hm
    · exact h.orderly.fits m hm
    · rcases hpub with ⟨h0, _⟩ | ⟨l, pl, ts, rfl, h0, _⟩
      · rw [h0] at hm; cases hm
      · rw [h0, List.mem_singleton] at hm
        subst hm
        obtain ⟨h1, h2⟩ := ht.small.payloads l n pl ts _ hmem
        exact ⟨h1, hlt, h2⟩
  · rw [hx]
    simp only [Stream.clockAfter_append]
    exact hclock.2
  · intro g
    rw [hx]
    simp only [hjoin]
    rcases hj g with h0 | ⟨h0, h1⟩
    · rw [h0, List.append_nil]; exact h.nodup g
    · rw [h0]
      refine List.nodup_append.2 ⟨h.nodup g, by simp, ?_⟩
      intro c hc c' hc' he
      rw [List.mem_singleton] at hc'
      obtain ⟨j, j1, j2⟩ := h.ids g c hc
      rw [h1, if_pos rfl] at hcnt
      have := ht.ok.ids j (w.countP isStreamAct) (by omega) (by omega) (by rw [← j2, he, hc'])
      omega
  · intro g c hc
    rw [hx] at hc
    simp only [hjoin] at hc
    rcases List.mem_append.1 hc with hc | hc
    · obtain ⟨j, j1, j2⟩ := h.ids g c hc
      exact ⟨j, by omega, j2⟩
    · rcases hj g with h0 | ⟨h0, h1⟩
      · rw [h0] at hc; cases hc
      · rw [h0, List.mem_singleton] at hc
        rw [h1, if_pos rfl] at hcnt
        exact ⟨_, by omega, hc⟩
  · intro m hm
    rw [hx] at hm
    simp only [Era.all, hall, ← List.append_assoc] at hm
    rcases List.mem_append.1 hm with hm | hm
    · obtain ⟨v₁, l, v₂, hv, hno⟩ := h.source m hm
      refine ⟨v₁, l, v₂ ++ [a], by rw [hv]; simp, ?_⟩
      intro b hb
      rcases List.mem_append.1 hb with hb | hb
      · exact hno b hb
      · rw [List.mem_singleton] at hb
        subst hb
        rintro ⟨l', pl', ts', he⟩
        obtain ⟨_, _, f, W, hdv⟩ := h.starts.run x.steps h.orderly
        obtain ⟨i, hi, hmi⟩ := List.getElem_of_mem hm
        have hq := hdv.num i m (by rw [← hmi]; exact List.getElem?_eq_getElem hi)
        have hn1 : (x.topic env).log.next = x.base + (x.msgs ++ Stream.published x.start.log.next x.steps).length := hdv.next
        rcases hpub with ⟨_, h0⟩ | ⟨l, pl, ts, h0, _, _⟩
        · rw [he] at h0; simp [publishes] at h0
        · rw [h0] at he
          injection he with _ _ _ he
          injection he with he
          injection he with he
          have := congrArg Wire.beVal he
          simp only [wireSeq] at this
          rw [Wire.beVal_be64_lt hlt, Wire.beVal_be64_lt (by omega)] at this
          omega
    · rcases hpub with ⟨h0, _⟩ | ⟨l, pl, ts, rfl, h0, _⟩
      · rw [h0] at hm; cases hm
      · rw [h0, List.mem_singleton] at hm
        subst hm
        exact ⟨v, l, [], rfl, fun _ hb => by cases hb⟩
  · rw [htop, Stream.run_next, List.countP_append, List.countP_singleton]
    have hb := h.bound
    rcases hpub with ⟨h0, h1⟩ | ⟨l, pl, ts, _, h0, h1⟩
    · rw [h0, h1]; simpa using hb
    · rw [h0, h1]; simp; omega
  · rw [hx]; exact h.named
  · intro e he g hg
    rw [hx] at he
    rcases List.mem_append.1 he with he | he
    · exact h.creates e he g hg
    · have hq := hsrc _ he
      cases hq with
      | join l g' now r => injection hg with hg; subst hg; exact ht.calm.joins l _ n now r hmem
      | seek l g' b now r => injection hg with hg; subst hg; exact ht.calm.sought l n _ b now r hmem
      | work _ _ _ _ _ _ _ _ id _ hw => rcases hw with hw | hw | hw | hw <;> (subst hw; cases hg)
      | task y _ hy =>
        have := ht.tasks _ _ _ hy
        cases e <;> first | (simp [inBackground] at this; done) | (simp [Stream.Ev.creates] at hg; done)
      | _ => cases hg
  · rw [hx]; exact h.saved

theorem Weathered.falls (ht : Weathered env lossy bg A) {a : Act I} (hs : A = w ++ a :: w₂) (ha : breaks bg a) {x : Era}
    (h : Current env lossy bg n o w v x) : ∃ base msgs, Current env lossy bg n o (w ++ [a]) (v ++ [a]) (x.crashed env lossy base msgs) ∧
      (x.topic env).log.head ≤ base ∧ ∀ m ∈ x.all, m.seq ≤ (x.topic env).persisted → m ∈ msgs ∨ m.seq < base := by
  obtain ⟨base, msgs, h1, h2, h3, h4⟩ := h.starts.resume x.steps h.orderly (ht.calm.clean w a w₂ hs ha n _ h.now)
  obtain ⟨_, _, f, W, hd⟩ := h.starts.run x.steps h.orderly
  refine ⟨base, msgs, ?_, h2, h3⟩
  have hstart : Stream.StartsWith env.crc base msgs (Stream.clockAfter x.since x.steps) ((x.topic env).restart env.crc lossy) := ⟨lossy, _, h1, rfl⟩
  have hcfg : (x.topic env).cfg = x.start.cfg := Stream.run_cfg _ _ _
  have hfn := h.saved.run (crc := env.crc) x.steps h.named h.creates
  have hac : actTime bg a = none := by
    obtain ⟨y, rfl, hy⟩ := ha
    simp [actTime, stepOf, hy]
  refine ⟨h1, rfl, ?_, ?_, ⟨?_, fun _ => trivial, ?_⟩, ?_, fun g => List.nodup_nil, ?_, ?_, ?_, ?_, ?_, by simp [h.len], ?_⟩
  · exact hcfg.trans h.cfg
  · rcases lived_topic (ht.simple ⟨_, hs.symm⟩ h.now) h.now (a := a) (by rintro ⟨_, _, _, rfl⟩; obtain ⟨_, hx, _⟩ := ha; cases hx) with ⟨h', _⟩ | ⟨_, hb⟩
    · exact h'
    · exact absurd ha hb
  · intro i hi; cases hi
  · intro m hm; cases hm
  · rw [clockOf_snoc, hac]; exact h.clock
  · intro g c hc; cases hc
  · intro m hm
    have : m ∈ msgs := by simpa [Era.all, Era.crashed, Stream.published] using hm
    obtain ⟨v₁, l, v₂, hv, hno⟩ := h.source m (h4 m this)
    refine ⟨v₁, l, v₂ ++ [a], by rw [hv]; simp, ?_⟩
    intro b hb
    rcases List.mem_append.1 hb with hb | hb
    · exact hno b hb
    · rw [List.mem_singleton] at hb
      subst hb
      rintro ⟨l', pl', ts', he⟩
      obtain ⟨_, hx, _⟩ := ha
      rw [he] at hx; cases hx
  · obtain ⟨_, hi, _, _⟩ := hstart.inv
    have hn : ((x.crashed env lossy base msgs).topic env).log.next = base + msgs.length := hi.next
    rw [hn, List.countP_append]
    have hb := h.bound
    have hnx : (x.topic env).log.next = x.base + x.all.length := hd.next
    rcases h1.split with ⟨_, rfl, rfl⟩ | ⟨pre, l, pp, p, _, hm, hp, _⟩
    · simp
    · have hne : msgs ≠ [] := by rw [hm]; simp [hp]
      have hlast := List.getLast_mem hne
      have hl : msgs[msgs.length - 1]? = some (msgs.getLast hne) := by
        rw [← List.getLast?_eq_getElem?, List.getLast?_eq_some_getLast hne]
      have hq := h1.numbered (msgs.length - 1) _ hl
      have hpos := List.length_pos_iff.2 hne
      obtain ⟨i, hi', hmi⟩ := List.getElem_of_mem (h4 _ hlast)
      have hq' := hd.num i _ (by rw [List.getElem?_eq_getElem hi', hmi])
      have hi'' : i < x.all.length := hi'
      omega
  · refine hstart.named (fun g hg => ?_)
    have hgr := Stream.build_group env.crc lossy g (x.topic env).cfg { (x.topic env).disk with writers := [] }
    cases hp : Stream.progress env.crc lossy g (x.topic env).disk.groups with
    | some f => exact hfn.file g f hp
    | none =>
      rw [hp] at hgr
      have hg' : (mget (Topic.build env.crc (x.topic env).cfg lossy { (x.topic env).disk with writers := [] }).groups g).isSome = true := hg
      rw [hgr] at hg'
      cases hg'
  · intro e he; cases he
  · exact ⟨hfn.file, fun d hd => (by cases hd)⟩

/-- What acts and crashes keep. -/
theorem Weathered.follow (ht : Weathered env lossy bg A) (n : Str) (o : StreamOpts) (Q : List (Act I) → List (Act I) → Era → Prop) {w v : List (Act I)} {x : Era}
    (hx : Current env lossy bg n o w v x) (hq : Q w v x) (y z : List (Act I)) (hy : ∀ a ∈ y, ¬ dropsTopic n a) (hA : A = w ++ y ++ z)
    (h1 : ∀ w v a w₂ x, A = w ++ a :: w₂ → a ∈ y → ¬ breaks bg a → ¬ dropsTopic n a → Current env lossy bg n o w v x →
      Current env lossy bg n o (w ++ [a]) (v ++ [a]) (x.on env bg n w a) → Q w v x → Q (w ++ [a]) (v ++ [a]) (x.on env bg n w a))
    (h2 : ∀ w v a w₂ x base msgs, A = w ++ a :: w₂ → breaks bg a → Current env lossy bg n o w v x →
      Current env lossy bg n o (w ++ [a]) (v ++ [a]) (x.crashed env lossy base msgs) → (x.topic env).log.head ≤ base →
      (∀ m ∈ x.all, m.seq ≤ (x.topic env).persisted → m ∈ msgs ∨ m.seq < base) → Q w v x →
      Q (w ++ [a]) (v ++ [a]) (x.crashed env lossy base msgs)) :
    ∃ x', Current env lossy bg n o (w ++ y) (v ++ y) x' ∧ Q (w ++ y) (v ++ y) x' := by
  induction y using Sdk.snoc_ind generalizing z with
  | h0 => exact ⟨x, by simpa using hx, by simpa using hq⟩
  | h1 y a ih =>
    have hA' : A = w ++ y ++ a :: z := by rw [hA]; simp
    obtain ⟨x', hc, hq'⟩ := ih (a :: z) (fun b hb => hy b (List.mem_append.2 (.inl hb))) hA'
      (fun w v b w₂ x k1 k2 => h1 w v b w₂ x k1 (List.mem_append.2 (.inl k2)))
    rw [← List.append_assoc, ← List.append_assoc]
    by_cases hb : breaks bg a
    · obtain ⟨base, msgs, k1, k2, k3⟩ := ht.falls hA' hb hc
      exact ⟨_, k1, h2 _ _ a z x' base msgs hA' hb hc k1 k2 k3 hq'⟩
    · have hd := hy a (by simp)
      have k1 := ht.goes hA' hb hd hc
      exact ⟨_, k1, h1 _ _ a z x' hA' (by simp) hb hd hc k1 hq'⟩

/-- Everything about a topic that holds when it is created, and that acts and crashes keep. -/
theorem Weathered.ind (ht : Weathered env lossy bg A) (n : Str) (u : List (Act I)) (o : StreamOpts) (Q : List (Act I) → List (Act I) → Era → Prop)
    (h0 : ∀ w, Risen env lossy bg n w u o [] → Current env lossy bg n o w [] (firstEra env o) → Q w [] (firstEra env o)) {w v : List (Act I)}
    (h1 : ∀ w v' a w₂ x, A = w ++ a :: w₂ → a ∈ v → ¬ breaks bg a → ¬ dropsTopic n a → Current env lossy bg n o w v' x →
      Current env lossy bg n o (w ++ [a]) (v' ++ [a]) (x.on env bg n w a) → Q w v' x → Q (w ++ [a]) (v' ++ [a]) (x.on env bg n w a))
    (h2 : ∀ w v a w₂ x base msgs, A = w ++ a :: w₂ → breaks bg a → Current env lossy bg n o w v x →
      Current env lossy bg n o (w ++ [a]) (v ++ [a]) (x.crashed env lossy base msgs) → (x.topic env).log.head ≤ base →
      (∀ m ∈ x.all, m.seq ≤ (x.topic env).persisted → m ∈ msgs ∨ m.seq < base) → Q w v x →
      Q (w ++ [a]) (v ++ [a]) (x.crashed env lossy base msgs))
    (hw : w <+: A) (h : Risen env lossy bg n w u o v) : ∃ x, Current env lossy bg n o w v x ∧ Q w v x := by
  obtain ⟨l, now, r, rfl⟩ := h.split
  obtain ⟨z, hz⟩ := hw
  have hr : Risen env lossy bg n (u ++ [.did l (.sCreate n o) now r]) u o [] := ⟨⟨l, now, r, rfl⟩, h.new, fun _ hb => by cases hb⟩
  have hf := ht.first (w := u ++ [.did l (.sCreate n o) now r]) ⟨v ++ z, by rw [← hz]; simp⟩ hr
  obtain ⟨x, k1, k2⟩ := ht.follow n o Q hf (h0 _ hr hf) v z h.kept (by rw [← hz]; simp) h1 h2
  refine ⟨x, ?_, ?_⟩
  · simpa using k1
  · simpa using k2

theorem Weathered.current (ht : Weathered env lossy bg A) (hw : w <+: A) (h : Risen env lossy bg n w u o v) : ∃ x, Current env lossy bg n o w v x := by
  obtain ⟨x, h, _⟩ := ht.ind n u o (fun _ _ _ => True) (fun _ _ _ => trivial) (fun _ _ _ _ _ _ _ _ _ _ _ _ => trivial)
    (fun _ _ _ _ _ _ _ _ _ _ _ _ _ _ => trivial) hw h
  exact ⟨x, h⟩

end

end Verif.Rpc
