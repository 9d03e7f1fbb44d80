import Verif.Proofs.Session
import Verif.Props.Stream

/-!
# The end of a connection (C62)

A run `es` of the connection `c` interleaves the steps of its request tasks, of its cleanup and of everything else that
goes on in the server (`SEv.other`); `(c.run es).2` is what the brokers do in that run.
-/

namespace Verif.Session

open Verif

/-- **C62, proved part**: if the connection has ended with a clean close of the socket and its cleanup is over, then —
whatever others do — no consumer that has joined over it is left in any group of any topic, none of its messages is held
any more, and no operation of the pub-sub broker sends it anything.  Required: when the request tasks are aborted, none
that is executing on another thread at this moment is still going to join a group (`NoJoinRunning`).

Missing: ends by an error, and joins that are executing at that moment; there the property fails (`C62_violated_error`,
`C62_violated_running`). -/
theorem C62_partial (dflt : Nat) (crc : Bytes → Nat) (db : List PubSub.Row) (now unixNow : Nat)
    (topics : List (Str × Stream.Topic)) (hst : ∀ n t, mget topics n = some t → Stream.Started crc t)
    (cid : PubSub.Cid) (conn : Str) (es : List SEv) (hown : NameIsOwn conn es)
    (hrun : NoJoinRunning { cid, conn, topics := mkeys topics } es)
    (hend : (Conn.run { cid, conn, topics := mkeys topics } es).1.status = .closed) :
    let h := (Conn.run { cid, conn, topics := mkeys topics } es).2
    let w := World.run dflt crc { pubsub := PubSub.boot db now unixNow, topics } h
    (∀ n name, (Stream.joinIds name (eventsOf n h)).Nodup) → (PubSub.connects (opsOf h)).Nodup →
      NothingLeft conn w ∧ ∀ op m, ¬ (PubSub.step dflt w.pubsub op).2.reached cid m := by
  intro h w hids hcids
  have hinv : CInv { cid, conn, topics := mkeys topics } [] := True.intro
  have hi := hinv.run es hrun hown
  obtain ⟨e1, e2, e3⟩ := run_same { cid, conn, topics := mkeys topics } es
  rw [List.nil_append] at hi
  unfold CInv at hi
  rw [hend] at hi
  simp only [e1, e2, e3] at hi
  obtain ⟨hps, _, hleft⟩ := hi
  constructor
  · intro n t name g ht hg
    change mget (World.run dflt crc _ h).topics n = some t at ht
    rw [run_topics] at ht
    obtain ⟨t0, ht0, rfl⟩ := Option.map_eq_some_iff.1 ht
    have hn : n ∈ mkeys topics := mget_isSome.1 (by rw [ht0]; rfl)
    obtain ⟨a, order, b, hab, hb⟩ := hleft n hn
    have hev : eventsOf n h = eventsOf n a ++ .disconnect conn order :: eventsOf n b := by
      change eventsOf n (Conn.run _ es).2 = _
      rw [hab, eventsOf_append]
      simp [eventsOf]
    have hnd := hids n name
    rw [hev] at hnd hg
    refine left_topic (hst n t0 ht0) hnd (fun e he g c hj => ?_) hg
    subst hj
    have := hb _ (mem_eventsOf.1 he)
    simp [Req.joinsOver] at this
  · intro op m
    change ¬ (PubSub.step dflt (World.run dflt crc _ h).pubsub op).2.reached cid m
    rw [run_pubsub]
    obtain ⟨a, b, hab, hc⟩ := hps
    have hop : opsOf h = opsOf a ++ .disconnect cid :: opsOf b := by
      change opsOf (Conn.run _ es).2 = _
      rw [hab, opsOf_append]; rfl
    have hcids' := hcids
    rw [hop] at hcids' ⊢
    refine PubSub.C16_never dflt db now unixNow (opsOf a) (opsOf b) cid hcids' ?_ op m
    have : PubSub.Op.connect cid ∈ opsOf a := mem_opsOf.2 hc
    generalize opsOf a = l at this
    induction l with
    | nil => cases this
    | cons x l ih =>
      rcases List.mem_cons.1 this with h | h
      · subst h; simp [PubSub.connects]
      · have ih := ih h
        cases x <;> simp only [PubSub.connects] <;> first | exact ih | exact List.mem_cons_of_mem _ ih

/-! ### The cleanup ends -/

/-- How many steps of the cleanup are left. -/
def Conn.stepsLeft (c : Conn) : Nat :=
  match c.status with
  | .ended => c.topics.length + 3
  | .aborted => c.topics.length + 2
  | .leaving todo => todo.length + 1
  | _ => 0

/-- The number of steps that the scheduler gives to the cleanup. -/
def cleanups : List SEv → Nat
  | [] => 0
  | .cleanup _ :: es => cleanups es + 1
  | _ :: es => cleanups es

/-- The socket has been closed cleanly, and the main loop has seen it. -/
def Status.ending : Status → Bool
  | .ended | .aborted | .leaving _ | .closed => true
  | _ => false

/-- **C62** After a clean close the cleanup always comes to its end: `topics + 3` steps are enough, whatever happens in
between. -/
theorem C62_cleanup_ends (c : Conn) (es : List SEv) (hc : c.status.ending = true) (hn : c.stepsLeft ≤ cleanups es) :
    (c.run es).1.status = .closed := by
  induction es generalizing c with
  | nil =>
    simp only [cleanups, Conn.stepsLeft] at hn
    simp only [Conn.run]
    cases hs : c.status <;> simp only [hs] at hn hc <;> first | rfl | (simp [Status.ending] at hc; done) | (simp at hn; done)
  | cons e es ih =>
    simp only [Conn.run]
    refine ih _ ?_ ?_
    · cases e <;> simp only [Conn.step] <;> (repeat' split) <;> simp_all [Status.ending]
    · cases e with
      | cleanup order =>
        simp only [cleanups] at hn
        simp only [Conn.step]
        cases hs : c.status with
        | leaving todo => cases todo <;> simp [Conn.stepsLeft, hs] at hn ⊢ <;> omega
        | ended => simp [Conn.stepsLeft, hs, Conn.abortAll] at hn ⊢; omega
        | aborted => simp [Conn.stepsLeft, hs] at hn ⊢; omega
        | _ => simp [Conn.stepsLeft, hs]
      | accept =>
        simp only [cleanups] at hn
        simp only [Conn.step]
        cases hs : c.status <;> simp [Conn.stepsLeft, hs] at hn ⊢ <;> omega
      | spawn todo =>
        simp only [cleanups] at hn
        simp only [Conn.step]
        cases hs : c.status <;> simp [Conn.stepsLeft, hs] at hn ⊢ <;> omega
      | socket ok =>
        simp only [cleanups] at hn
        simp only [Conn.step]
        cases hs : c.status <;> simp [Conn.stepsLeft, hs, Status.ending] at hn hc ⊢ <;> omega
      | park i =>
        simp only [cleanups] at hn
        simp only [Conn.step]
        split <;> exact hn
      | work i =>
        simp only [cleanups] at hn
        simp only [Conn.step]
        split <;> exact hn
      | poll i => exact hn
      | other r => exact hn

/-! ### Where the property fails -/

/-- What others do in a run. -/
def others : List SEv → List Req
  | [] => []
  | .other r :: es => r :: others es
  | _ :: es => others es

/-- **C62 does not hold** when the connection ends by an error (a broken or unfinished frame, a reset, a failed write):
from then on the server does nothing at all for this connection, so its consumers stay in their groups. -/
theorem C62_violated_error (c : Conn) (hs : c.status = .serving) (hp : ∀ t ∈ c.tasks, t.polled = false) (es : List SEv) :
    (c.run (.socket false :: es)).2 = others es ∧ (c.run (.socket false :: es)).1.status = .failed := by
  have key : ∀ (es : List SEv) (c : Conn), c.status = .failed → c.tasks = [] →
      (c.run es).2 = others es ∧ (c.run es).1.status = .failed := by
    intro es
    induction es with
    | nil => intro c hs _; exact ⟨rfl, hs⟩
    | cons e es ih =>
      intro c hs ht
      have hstep : (c.step e).1.status = .failed ∧ (c.step e).1.tasks = []
          ∧ (c.step e).2 = others [e] := by
        cases e <;> simp [Conn.step, hs, ht, others, Status.over]
      obtain ⟨a, b⟩ := ih _ hstep.1 hstep.2.1
      refine ⟨?_, b⟩
      simp only [Conn.run]
      rw [a, hstep.2.2]
      cases e <;> rfl
  simp only [Conn.run, Conn.step, hs, Bool.false_eq_true, if_false, List.nil_append]
  refine key es _ rfl ?_
  simp only [Conn.abortAll, List.filter_eq_nil_iff]
  intro t ht
  simp [hp t ht]

/-- The peer closes the connection in the middle of a frame header: that counts as an error. -/
theorem C62_violated_half_frame (max : Nat) (b : Bytes) (h0 : b ≠ []) (h : b.length < 10) : socketOk max [b] = false := by
  have hd : Wire.decode max b = .need := by
    unfold Wire.decode; exact if_pos h
  have hr : Wire.Reader.run max {} [b] = { frames := [], buf := b, err := false } := by
    simp [Wire.Reader.run, Wire.Reader.feed, Wire.drain, Wire.drainN, hd]
  rw [socketOk, hr]
  simp [Wire.Reader.cleanEof, h0]

namespace Ex

open Verif.Stream.Ex (t0 g)

/-- One topic; the connection is `5` at the pub-sub broker and `[11]` at the stream broker. -/
def w0 : World := { pubsub := PubSub.boot [] 0 0, topics := [([116], t0)] }
def c0 : Conn := { cid := 5, conn := [11], topics := [[116]] }

/-- A consumer joins over the connection and fetches the only message; the client has subscribed to `a`. -/
def work : List SEv :=
  [.accept, .other (.st [116] (.publish 5 [1])), .other (.st [116] (.send 0)),
   .spawn [.st [116] (.join g [11] [1]), .ps (.subscribe 5 [97] [] 0)],
   .poll 0, .work 0, .work 0, .park 0,
   .spawn [.st [116] (.fetch g [1] 1 2 false), .st [116] (.attempt 0 100)], .poll 1, .work 1, .work 1, .park 1]

/-- A clean close. -/
def clean : List SEv :=
  work ++ [.socket true, .cleanup (fun _ => []), .cleanup (fun _ => []), .cleanup (fun _ => []), .cleanup (fun _ => [])]

/-- A close by an error; the cleanup steps have no effect. -/
def broken : List SEv := work ++ [.socket false, .cleanup (fun _ => []), .cleanup (fun _ => [])]

/-- A clean close while the task of a join is executing on another thread. -/
def running : List SEv :=
  [.accept, .spawn [.st [116] (.join g [11] [1])], .poll 0, .socket true, .cleanup (fun _ => []), .cleanup (fun _ => []),
   .cleanup (fun _ => []), .cleanup (fun _ => []), .work 0, .park 0]

def membersOf (w : World) : Option (List (Str × Str) × Nat) :=
  (mget w.topics [116]).bind (fun t => (mget t.groups g).map (fun x => (x.members, x.pending.length)))

end Ex

/-- The hypotheses of `C62_partial` hold for a connection that has joined, fetched, subscribed and been closed; before
the close its consumer holds a message and a publish reaches it. -/
example : (Ex.c0.run Ex.clean).1.status = .closed
    ∧ NoJoinRunning Ex.c0 Ex.clean ∧ NameIsOwn [11] Ex.clean
    ∧ Ex.membersOf (Ex.w0.run 9 Stream.Ex.crc (Ex.c0.run Ex.work).2) = some ([([1], [11])], 1)
    ∧ (PubSub.step 9 (Ex.w0.run 9 Stream.Ex.crc (Ex.c0.run Ex.work).2).pubsub (.publish [97] [1] false none 0 0)).2.sent.map (·.1) = [5]
    ∧ Ex.membersOf (Ex.w0.run 9 Stream.Ex.crc (Ex.c0.run Ex.clean).2) = some ([], 0)
    ∧ (Stream.joinIds Stream.Ex.g (eventsOf [116] (Ex.c0.run Ex.clean).2)).Nodup
    ∧ (PubSub.connects (opsOf (Ex.c0.run Ex.clean).2)).Nodup := by
  refine ⟨by decide, by decide, ?_, by decide, by decide, by decide, by decide, by decide⟩
  · intro r hr
    simp [Ex.clean, Ex.work] at hr
    rcases hr with h | h <;> subst h <;> rfl

/-- **C62 does not hold** after an error: the consumer stays a member and keeps its message. -/
theorem C62_violated_error_witness :
    (Ex.c0.run Ex.broken).1.status = .failed
    ∧ Ex.membersOf (Ex.w0.run 9 Stream.Ex.crc (Ex.c0.run Ex.broken).2) = some ([([1], [11])], 1) := by decide

/-- **C62 does not hold** when a join is executing on another thread while the tasks are aborted: the connection is
closed, and its consumer is a member of the group for ever. -/
theorem C62_violated_running :
    (Ex.c0.run Ex.running).1.status = .closed ∧ (Ex.c0.run Ex.running).1.tasks.length = 0
    ∧ Ex.membersOf (Ex.w0.run 9 Stream.Ex.crc (Ex.c0.run Ex.running).2) = some ([([1], [11])], 0) := by decide

end Verif.Session
