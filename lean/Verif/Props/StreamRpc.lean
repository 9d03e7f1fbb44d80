import Verif.Proofs.StreamRpc6
import Verif.Props.QueueRpc

/-!
# C103, C104: the streams as an application behind the network sees them

The English statements are in `/verif/properties.jsonl`.  That a promise settled with an answer belongs to a command that was carried out
between the call and then, and shows its answer, is `C101_carried_out`.
-/

namespace Verif.Rpc

open Verif Verif.Wire Verif.Sdk

variable {E I : Type}

/-- **C103.** The messages that the promise of a `fetch` resolves to each have the number, the timestamp and the payload of a `publish` on
that topic that was carried out before and answered with that number; since then the topic was not deleted. -/
theorem C103_faithful (pr : Printer) (srv : Server E I) {env : Env} {part : E → Streams} {bg : I → Option (Str × Stream.Ev)}
    (hp : StreamPart srv env part bg) (e0 : E) (h0 : part e0 = {}) (es : List (Ev I)) {tr : List (Obs I)}
    (htr : tr = ((World.init e0).run pr srv es).2) (ho : Ordinary pr srv tr) (hk : env.Ok (acts tr)) (hsm : Small (acts tr))
    {a b : List (Obs I)} {p tag : Nat} {d : Bytes} {n g c : Str} {gen lim w : Nat}
    (hs : tr = a ++ .settled p tag (.answer 3 d) :: b) (hc : ∀ cmd s, Obs.called p tag cmd s ∈ a → cmd = .sFetch n g c gen lim w)
    {s ts : Nat} {pl : Bytes} (hm : (s, ts, pl) ∈ fetchedMsgs (some (.data d))) :
    ∃ x l y, x ++ .did l (.sPub n pl) ts (some (.data (wireSeq s))) :: y <+: acts a ∧ ∀ z ∈ y, ¬ dropsTopic n z := by
  obtain ⟨a1, a2, _, l, now, r, x, y, h1, h2, h3⟩ := C101_carried_out pr srv e0 es htr ho hs hc
  have hr : r = .data d := by cases r <;> simp [shows] at h3 <;> rw [h3]
  subst hr
  have ht : Streamed env bg (acts tr) := by subst htr; exact streamed pr hp h0 es ho hk hsm
  have hA : acts tr = (acts a1 ++ x) ++ .did l (.sFetch n g c gen lim w) now (some (.data d)) :: (y ++ actsFrom a (.settled p tag (.answer 3 d) :: b)) := by
    rw [hs, acts_append, h2]; simp
  obtain ⟨x', l', y', e1, e2⟩ := ht.faithful hA hm
  refine ⟨x', l', y', ?_, e2⟩
  rw [← e1, h2]
  exact ⟨_, rfl⟩

/-- **C103.** What the application gets: if the messages of the topic were published with `publish(value)`, the library decodes the answer to a
`fetch` to the numbers and the values of the messages in it, in their order. -/
theorem C103_values (pr : Printer) (srv : Server E I) {env : Env} {part : E → Streams} {bg : I → Option (Str × Stream.Ev)}
    (hp : StreamPart srv env part bg) (e0 : E) (h0 : part e0 = {}) (es : List (Ev I)) {tr : List (Obs I)}
    (htr : tr = ((World.init e0).run pr srv es).2) (ho : Ordinary pr srv tr) (hk : env.Ok (acts tr)) (hsm : Small (acts tr))
    {a b : List (Obs I)} {p tag : Nat} {d : Bytes} {n g c : Str} {gen lim w : Nat}
    (hs : tr = a ++ .settled p tag (.answer 3 d) :: b) (hc : ∀ cmd s, Obs.called p tag cmd s ∈ a → cmd = .sFetch n g c gen lim w)
    {value : Bytes → Val} (hv : ∀ l pl t r, Act.did l (.sPub n pl) t r ∈ acts tr → (value pl).Writable ∧ pl = tsAny (value pl)) :
    tsFetch d = some ((fetchedMsgs (some (.data d))).map (fun m => (m.1, value m.2.2))) := by
  have hfa := fun s ts pl => C103_faithful pr srv hp e0 h0 es htr ho hk hsm hs hc (s := s) (ts := ts) (pl := pl)
  obtain ⟨a1, a2, _, l, now, r, x, y, h1, h2, h3⟩ := C101_carried_out pr srv e0 es htr ho hs hc
  have hr : r = .data d := by cases r <;> simp [shows] at h3 <;> rw [h3]
  subst hr
  have ht : Streamed env bg (acts tr) := by subst htr; exact streamed pr hp h0 es ho hk hsm
  have hA : acts tr = (acts a1 ++ x) ++ .did l (.sFetch n g c gen lim w) now (some (.data d)) :: (y ++ actsFrom a (.settled p tag (.answer 3 d) :: b)) := by
    rw [hs, acts_append, h2]; simp
  have hdec : ∀ m ∈ fetchedMsgs (some (.data d)), tsDecodeAny m.2.2 = some (value m.2.2) := by
    intro m hm
    obtain ⟨u, l', v, e1, _⟩ := hfa m.1 m.2.1 m.2.2 hm
    have hmem : Act.did l' (.sPub n m.2.2) m.2.1 (some (.data (wireSeq m.1))) ∈ acts tr := by
      obtain ⟨z, hz⟩ := e1
      rw [hs, acts_append, ← hz]; simp
    obtain ⟨w1, w2⟩ := hv _ _ _ _ hmem
    exact (congrArg tsDecodeAny w2).trans (C06_values _ w1)
  obtain ⟨ms, k1, k2, k3, k4⟩ := ht.data hA
  rw [k2] at hdec ⊢
  obtain ⟨b1, b2⟩ := fetch_length (ms.map wireMsg)
  rw [k1, C06_fetch_partial (ms.map wireMsg) (fun m => value m.payload) (Nat.lt_of_le_of_lt b1 k4) ?_ ?_]
  · simp [triples, wireMsg]
  · intro m hm
    obtain ⟨m', hm', rfl⟩ := List.mem_map.1 hm
    exact ⟨(k3 m' hm').1, (k3 m' hm').2, Nat.lt_of_le_of_lt (b2 _ hm) k4⟩
  · intro m hm
    obtain ⟨m', hm', rfl⟩ := List.mem_map.1 hm
    exact hdec _ (List.mem_map.2 ⟨m', hm', rfl⟩)

/-- **C103.** The publishes on a topic are numbered 1, 2, 3, … in the order in which they are carried out, whoever makes them: the answer to a
publish is one more than the number of those answered before it, since the topic was created. -/
theorem C103_numbers (pr : Printer) (srv : Server E I) {env : Env} {part : E → Streams} {bg : I → Option (Str × Stream.Ev)}
    (hp : StreamPart srv env part bg) (e0 : E) (h0 : part e0 = {}) (es : List (Ev I)) {tr : List (Obs I)}
    (htr : tr = ((World.init e0).run pr srv es).2) (ho : Ordinary pr srv tr) (hk : env.Ok (acts tr)) (hsm : Small (acts tr))
    {x y z : List (Act I)} {l now : Nat} {n : Str} {pl d : Bytes} (hs : acts tr = x ++ y ++ .did l (.sPub n pl) now (some (.data d)) :: z)
    (hx : Anew n x) (hy : ∀ a ∈ y, ¬ dropsTopic n a) : d = wireSeq (1 + y.countP (publishes n)) := by
  subst htr
  exact (streamed pr hp h0 es ho hk hsm).numbers hs hx hy

/-- **C103.** Each message goes to one consumer of a group: it is handed out a second time, to whichever consumer, only if in between the first
consumer left, the connection over which it had joined closed, its time for acknowledging was over, or the group was sought. -/
theorem C103_exclusive (pr : Printer) (srv : Server E I) {env : Env} {part : E → Streams} {bg : I → Option (Str × Stream.Ev)}
    (hp : StreamPart srv env part bg) (e0 : E) (h0 : part e0 = {}) (es : List (Ev I)) {tr : List (Obs I)}
    (htr : tr = ((World.init e0).run pr srv es).2) (ho : Ordinary pr srv tr) (hk : env.Ok (acts tr)) (hsm : Small (acts tr))
    {u v z : List (Act I)} {n g c c' : Str} {l gen lim w now l' gen' lim' w' now' : Nat} {r r' : Option Response}
    (hs : acts tr = u ++ .did l (.sFetch n g c gen lim w) now r :: v ++ .did l' (.sFetch n g c' gen' lim' w') now' r' :: z)
    {s : Nat} (hm : s ∈ fetchedSeqs r) (hm' : s ∈ fetchedSeqs r') (hd : ∀ a ∈ v, ¬ dropsTopic n a) :
    ∃ x a y, v = x ++ a :: y ∧ (takesBack env bg (u ++ .did l (.sFetch n g c gen lim w) now r :: x) n g c now a ∨ seeks n g a) := by
  subst htr
  exact (streamed pr hp h0 es ho hk hsm).exclusive hs hm hm' hd

/-- **C103.** An acknowledged message is not handed out to the group again, unless the group is sought (or the topic deleted and made anew). -/
theorem C103_ack_final (pr : Printer) (srv : Server E I) {env : Env} {part : E → Streams} {bg : I → Option (Str × Stream.Ev)}
    (hp : StreamPart srv env part bg) (e0 : E) (h0 : part e0 = {}) (es : List (Ev I)) {tr : List (Obs I)}
    (htr : tr = ((World.init e0).run pr srv es).2) (ho : Ordinary pr srv tr) (hk : env.Ok (acts tr)) (hsm : Small (acts tr))
    {u v z : List (Act I)} {n g c c' : Str} {s l gen t l' gen' lim w now : Nat} {r : Option Response}
    (hs : acts tr = u ++ .did l (.sAck n g c gen s) t (some .ok) :: v ++ .did l' (.sFetch n g c' gen' lim w) now r :: z)
    (hd : ∀ a ∈ v, ¬ dropsTopic n a) (hv : ∀ a ∈ v, ¬ seeks n g a) : s ∉ fetchedSeqs r := by
  subst htr
  exact (streamed pr hp h0 es ho hk hsm).ack_final hs hd hv

/-- **C103.** Only a consumer that was handed a message can acknowledge it: an `ack` answered `ok` was made for a message that a `fetch` had
handed to the same consumer, and since then the group was not sought. -/
theorem C103_ack_holder (pr : Printer) (srv : Server E I) {env : Env} {part : E → Streams} {bg : I → Option (Str × Stream.Ev)}
    (hp : StreamPart srv env part bg) (e0 : E) (h0 : part e0 = {}) (es : List (Ev I)) {tr : List (Obs I)}
    (htr : tr = ((World.init e0).run pr srv es).2) (ho : Ordinary pr srv tr) (hk : env.Ok (acts tr)) (hsm : Small (acts tr))
    {u v : List (Act I)} {n g c : Str} {s l gen t : Nat} (hs : acts tr = u ++ .did l (.sAck n g c gen s) t (some .ok) :: v) :
    ∃ x l' gen' lim w now r y, u = x ++ .did l' (.sFetch n g c gen' lim w) now r :: y ∧ s ∈ fetchedSeqs r ∧
      ∀ a ∈ y, ¬ dropsTopic n a ∧ ¬ seeks n g a := by
  subst htr
  exact (streamed pr hp h0 es ho hk hsm).holder hs

/-- **C103.** A group gets new messages in the order of the stream: after a message, an earlier one is handed out only if it had been handed out
before (and the group not sought since). -/
theorem C103_order (pr : Printer) (srv : Server E I) {env : Env} {part : E → Streams} {bg : I → Option (Str × Stream.Ev)}
    (hp : StreamPart srv env part bg) (e0 : E) (h0 : part e0 = {}) (es : List (Ev I)) {tr : List (Obs I)}
    (htr : tr = ((World.init e0).run pr srv es).2) (ho : Ordinary pr srv tr) (hk : env.Ok (acts tr)) (hsm : Small (acts tr))
    {u v z : List (Act I)} {n g c c' : Str} {l gen lim w now l' gen' lim' w' now' : Nat} {r r' : Option Response}
    (hs : acts tr = u ++ .did l (.sFetch n g c gen lim w) now r :: v ++ .did l' (.sFetch n g c' gen' lim' w') now' r' :: z)
    {s s' : Nat} (hm : s' ∈ fetchedSeqs r) (hm' : s ∈ fetchedSeqs r') (hlt : s < s')
    (hd : ∀ a ∈ v, ¬ dropsTopic n a) (hv : ∀ a ∈ v, ¬ seeks n g a) :
    ∃ x a y, u ++ .did l (.sFetch n g c gen lim w) now r :: v = x ++ a :: y ∧ givesOut n g s a ∧ ∀ b ∈ y, ¬ dropsTopic n b ∧ ¬ seeks n g b := by
  subst htr
  exact (streamed pr hp h0 es ho hk hsm).order hs hm hm' hlt hd hv

/-- **C103.** Nothing is skipped: if the topic is new after `x`, and retention has removed nothing and the group was not sought since, then a
message is handed out to the group only if every earlier one has been, or is in the same answer. -/
theorem C103_no_gap (pr : Printer) (srv : Server E I) {env : Env} {part : E → Streams} {bg : I → Option (Str × Stream.Ev)}
    (hp : StreamPart srv env part bg) (e0 : E) (h0 : part e0 = {}) (es : List (Ev I)) {tr : List (Obs I)}
    (htr : tr = ((World.init e0).run pr srv es).2) (ho : Ordinary pr srv tr) (hk : env.Ok (acts tr)) (hsm : Small (acts tr))
    {x y z : List (Act I)} {n g c : Str} {l gen lim w now : Nat} {r : Option Response}
    (hs : acts tr = x ++ y ++ .did l (.sFetch n g c gen lim w) now r :: z) {s s' : Nat} (hm : s ∈ fetchedSeqs r) (hlt : s' < s) (h1 : 1 ≤ s')
    (hx : Anew n x) (hv : ∀ a ∈ y, ¬ seeks n g a) (hr : ∀ a ∈ y, ¬ removes bg n a) :
    givesOut n g s' (Act.did (I := I) l (.sFetch n g c gen lim w) now r) ∨ ∃ a ∈ y, givesOut n g s' a := by
  subst htr
  exact (streamed pr hp h0 es ho hk hsm).no_gap hs hm hlt h1 hx hv hr

/-- **C103.** While the topic is not deleted and the group is not sought, no message is handed out to the group more than `max_deliveries`
times. -/
theorem C103_limit (pr : Printer) (srv : Server E I) {env : Env} {part : E → Streams} {bg : I → Option (Str × Stream.Ev)}
    (hp : StreamPart srv env part bg) (e0 : E) (h0 : part e0 = {}) (es : List (Ev I)) {tr : List (Obs I)}
    (htr : tr = ((World.init e0).run pr srv es).2) (ho : Ordinary pr srv tr) (hk : env.Ok (acts tr)) (hsm : Small (acts tr))
    {x y z : List (Act I)} {n g : Str} (hs : acts tr = x ++ y ++ z) (s : Nat) (hd : ∀ a ∈ y, ¬ dropsTopic n a) (hv : ∀ a ∈ y, ¬ seeks n g a) :
    timesGiven n g s y ≤ env.sys.maxDeliveries := by
  subst htr
  exact (streamed pr hp h0 es ho hk hsm).limit hs s hd hv

/-! ## C104 -/

/-- **C104** (partial: the first publish was answered before the second one was made).  A message published on a topic, by any client, after
another publish was answered has a higher number. -/
theorem C104_answered_first_partial (pr : Printer) (srv : Server E I) {env : Env} {part : E → Streams} {bg : I → Option (Str × Stream.Ev)}
    (hp : StreamPart srv env part bg) (e0 : E) (h0 : part e0 = {}) (es : List (Ev I)) {tr : List (Obs I)}
    (htr : tr = ((World.init e0).run pr srv es).2) (ho : Ordinary pr srv tr) (hk : env.Ok (acts tr)) (hsm : Small (acts tr))
    {a b c : List (Obs I)} {p tag p₂ tag₂ : Nat} {d d₂ : Bytes} {n : Str} {pl pl₂ : Bytes}
    (hs : tr = a ++ .settled p tag (.answer 3 d) :: b ++ .settled p₂ tag₂ (.answer 3 d₂) :: c)
    (hc : ∀ cmd s, Obs.called p tag cmd s ∈ a → cmd = .sPub n pl) (hc₂ : ∀ cmd s, Obs.called p₂ tag₂ cmd s ∈ b → cmd = .sPub n pl₂)
    (hnew : ∀ cmd s, Obs.called p₂ tag₂ cmd s ∉ a) (hd : ∀ x ∈ acts tr, ¬ dropsTopic n x) : beVal d < beVal d₂ := by
  obtain ⟨a1, a2, _, l, now, r, x, y, h1, h2, h3⟩ := C101_carried_out pr srv e0 es htr ho (show tr = a ++ .settled p tag (.answer 3 d) :: (b ++ .settled p₂ tag₂ (.answer 3 d₂) :: c) by rw [hs]; simp) hc
  have hr : r = .data d := by cases r <;> simp [shows] at h3 <;> rw [h3]
  subst hr
  obtain ⟨b1, b2, q, l', now', r', x', y', g1, g2, g3⟩ := C101_carried_out pr srv e0 es htr ho hs (cmd := .sPub n pl₂) (by
    intro cmd s hm
    rcases List.mem_append.1 hm with hm | hm
    · exact absurd hm (hnew _ _)
    · rcases List.mem_cons.1 hm with hm | hm
      · cases hm
      · exact hc₂ _ _ hm)
  have hr : r' = .data d₂ := by cases r' <;> simp [shows] at g3 <;> rw [g3]
  subst hr
  -- the second call comes after the first answer
  obtain ⟨z, hz⟩ : ∃ z, b1 = a ++ z := by
    rcases List.append_eq_append_iff.1 g1 with ⟨z, h, _⟩ | ⟨z, h, h'⟩
    · exact ⟨z, h⟩
    · cases z with
      | nil => exact ⟨[], by simpa using h.symm⟩
      | cons e z =>
        injection h' with h' _
        exact absurd (by rw [h, ← h']; simp) (hnew (.sPub n pl₂) q)
  have ht : Streamed env bg (acts tr) := by subst htr; exact streamed pr hp h0 es ho hk hsm
  have hA₁ : acts tr = [] ++ (acts a1 ++ x) ++ .did l (.sPub n pl) now (some (.data d)) ::
      (y ++ actsFrom a (.settled p tag (.answer 3 d) :: (b ++ .settled p₂ tag₂ (.answer 3 d₂) :: c))) := by
    rw [hs, List.append_assoc, List.cons_append, acts_append, h2]; simp only [List.nil_append, List.append_assoc, List.cons_append]
  have hA₂ : acts tr = [] ++ (acts a1 ++ x ++ .did l (.sPub n pl) now (some (.data d)) :: (y ++ actsFrom a z ++ x')) ++ .did l' (.sPub n pl₂) now' (some (.data d₂)) ::
      (y' ++ actsFrom (a ++ .settled p tag (.answer 3 d) :: b) (.settled p₂ tag₂ (.answer 3 d₂) :: c)) := by
    rw [hs, acts_append, g2, hz, acts_append, h2]; simp only [List.nil_append, List.append_assoc, List.cons_append]
  have hsub : ∀ w ∈ acts a1 ++ x ++ .did l (.sPub n pl) now (some (.data d)) :: (y ++ actsFrom a z ++ x'), ¬ dropsTopic n w := by
    intro w hw
    refine hd w ?_
    rw [hA₂, List.nil_append]
    exact List.mem_append.2 (.inl hw)
  have hn₁ := ht.numbers hA₁ (.inl rfl) (fun w hw => hsub w (List.mem_append.2 (.inl hw)))
  have hn₂ := ht.numbers hA₂ (.inl rfl) hsub
  have hlen := hsm.length
  rw [hA₂] at hlen
  simp only [List.nil_append, List.length_append, List.length_cons] at hlen
  have hpub : publishes n (Act.did (I := I) l (.sPub n pl) now (some (.data d))) = true := by simp [publishes]
  have e1 : (acts a1 ++ x).countP (publishes n) ≤ (acts a1 ++ x).length := List.countP_le_length
  have e2 : (y ++ actsFrom a z ++ x').countP (publishes n) ≤ (y ++ actsFrom a z ++ x').length := List.countP_le_length
  rw [List.countP_append, List.countP_cons_of_pos hpub] at hn₂
  simp only [List.length_append] at e1 e2
  rw [hn₁, hn₂]
  unfold wireSeq
  rw [beVal_be64_lt (by omega), beVal_be64_lt (by omega)]
  omega

/-! ## A concrete server -/

def exStreamEnv : Env where
  crc := fun _ => 0
  sys := { softLimit := 10, maxSegment := 1000, age := 1000, bytes := 1000, maxPending := 10, ackWait := 100, maxDeliveries := 2 }
  conn := fun l => List.replicate l 99
  consumer := fun k => List.replicate k 97
  order := fun _ => []
  pick := fun _ => none

def exStreamBg (x : Str × Nat) : Option (Str × Stream.Ev) := some (x.1, .tick x.2 (fun _ => []))

/-- A server with nothing but streams; the redelivery task is its only background task. -/
def exStreamServer : Server Streams (Str × Nat) where
  max := 1000
  sd := exSerde
  exec := fun l now cmd e => streamExec exStreamEnv l now cmd e
  tick := fun x e => e.background exStreamEnv.crc x.1 (.tick x.2 (fun _ => []))

theorem exStreamPart : StreamPart exStreamServer exStreamEnv (fun e => e) exStreamBg := by
  refine ⟨fun l now cmd e _ => rfl, ?_, fun x e => rfl, ?_⟩
  · intro l now cmd e hs
    cases cmd <;> first | rfl | cases hs
  · rintro x n ev h
    injection h with h
    injection h with _ h
    subst h
    rfl

/-- A request from the call to the answer, on an idle connection. -/
def exReq (p l tag now : Nat) (cmd : Cmd) : List (Ev (Str × Nat)) :=
  [.call p tag 5000 0 cmd, .toServer l 100, .server l now .spawn, .server l now (.complete 0), .server l now (.post 0), .server l now .write, .toClient l 100]

def exReqObs (p l tag now : Nat) (cmd : Cmd) (op : UInt8) (body : Bytes) (r : Response) : List (Obs (Str × Nat)) :=
  [.called p tag cmd (some (l, tag)), .executed l ⟨1, op, tag, body⟩ now (some r), .settled p tag (.answer (shows r).1 (shows r).2)]

/-- A client creates a topic and publishes two messages; another one joins a group, gets both in one answer and acknowledges the second; much
later, when the redelivery task has run, the first client joins the group as well and gets the first message. -/
def exStreamEvents : List (Ev (Str × Nat)) :=
  [.lib 0 .connect, .lib 0 .opened, .lib 1 .connect, .lib 1 .opened]
  ++ exReq 0 0 1 1 (.sCreate [115] ⟨none⟩)
  ++ exReq 0 0 2 2 (.sPub [115] (tsAny (.raw [7])))
  ++ exReq 0 0 3 3 (.sPub [115] (tsAny (.raw [8])))
  ++ exReq 1 1 1 4 (.sJoin [103] [115])
  ++ exReq 1 1 2 5 (.sFetch [115] [103] [97, 97, 97] 1 10 0)
  ++ exReq 1 1 3 6 (.sAck [115] [103] [97, 97, 97] 1 2)
  ++ [.tick ([115], 200)]
  ++ exReq 0 0 4 201 (.sJoin [103] [115])
  ++ exReq 0 0 5 202 (.sFetch [115] [103] [97, 97, 97, 97, 97, 97] 1 10 0)

def exFetch₁ : Bytes := wireFetch [⟨1, 2, [0, 7]⟩, ⟨2, 3, [0, 8]⟩]
def exFetch₂ : Bytes := wireFetch [⟨1, 2, [0, 7]⟩]

def exStreamTrace : List (Obs (Str × Nat)) :=
  exReqObs 0 0 1 1 (.sCreate [115] ⟨none⟩) 48 [0, 0, 0, 1, 115, 0, 0, 0, 2, 123, 125] .ok
  ++ exReqObs 0 0 2 2 (.sPub [115] [0, 7]) 49 [0, 0, 0, 1, 115, 0, 7] (.data (wireSeq 1))
  ++ exReqObs 0 0 3 3 (.sPub [115] [0, 8]) 49 [0, 0, 0, 1, 115, 0, 8] (.data (wireSeq 2))
  ++ exReqObs 1 1 1 4 (.sJoin [103] [115]) 51 [0, 0, 0, 1, 103, 0, 0, 0, 1, 115] (.data (wireJoin 0 1 [97, 97, 97]))
  ++ exReqObs 1 1 2 5 (.sFetch [115] [103] [97, 97, 97] 1 10 0) 50
      [0, 0, 0, 1, 115, 0, 0, 0, 1, 103, 0, 0, 0, 3, 97, 97, 97, 0, 0, 0, 0, 0, 0, 0, 1, 0, 0, 0, 10, 0, 0, 0, 0] (.data exFetch₁)
  ++ exReqObs 1 1 3 6 (.sAck [115] [103] [97, 97, 97] 1 2) 52
      [0, 0, 0, 1, 115, 0, 0, 0, 1, 103, 0, 0, 0, 3, 97, 97, 97, 0, 0, 0, 0, 0, 0, 0, 1, 0, 0, 0, 0, 0, 0, 0, 2] .ok
  ++ [.ticked ([115], 200)]
  ++ exReqObs 0 0 4 201 (.sJoin [103] [115]) 51 [0, 0, 0, 1, 103, 0, 0, 0, 1, 115] (.data (wireJoin 0 1 [97, 97, 97, 97, 97, 97]))
  ++ exReqObs 0 0 5 202 (.sFetch [115] [103] [97, 97, 97, 97, 97, 97] 1 10 0) 50
      [0, 0, 0, 1, 115, 0, 0, 0, 1, 103, 0, 0, 0, 6, 97, 97, 97, 97, 97, 97, 0, 0, 0, 0, 0, 0, 0, 1, 0, 0, 0, 10, 0, 0, 0, 0] (.data exFetch₂)

set_option maxRecDepth 100000 in
theorem exStreamRun : ((World.init {}).run exPrinter exStreamServer exStreamEvents).2 = exStreamTrace := by decide

theorem exStreamOrdinary : Ordinary exPrinter exStreamServer exStreamTrace := by
  refine ⟨?_, ?_, ?_, fun p => countP_le _ _ _ (by decide)⟩
  · intro o ho cmd hc
    simp only [exStreamTrace, exReqObs, List.mem_append, List.mem_cons, List.not_mem_nil, or_false, or_assoc] at ho
    rcases ho with rfl | rfl | rfl | rfl | rfl | rfl | rfl | rfl | rfl | rfl | rfl | rfl | rfl | rfl | rfl | rfl | rfl | rfl | rfl | rfl | rfl | rfl | rfl | rfl | rfl <;>
      simp only [Obs.cmd?, reduceCtorEq] at hc <;> injection hc with hc <;> subst hc
    · refine ⟨show StrOk [115] by decide, ⟨by decide, by decide⟩, ?_⟩
      intro op body hb
      injection hb with hb; injection hb with h1 h2; subst h2; decide
    · refine ⟨show StrOk [115] by decide, trivial, ?_⟩
      intro op body hb
      injection hb with hb; injection hb with h1 h2; subst h2; decide
    · refine ⟨show StrOk [115] by decide, trivial, ?_⟩
      intro op body hb
      injection hb with hb; injection hb with h1 h2; subst h2; decide
    · refine ⟨⟨by decide, by decide⟩, trivial, ?_⟩
      intro op body hb
      injection hb with hb; injection hb with h1 h2; subst h2; decide
    · refine ⟨⟨by decide, by decide, by decide, by decide, by decide, by decide⟩, trivial, ?_⟩
      intro op body hb
      injection hb with hb; injection hb with h1 h2; subst h2; decide
    · refine ⟨⟨by decide, by decide, by decide, by decide, by decide⟩, trivial, ?_⟩
      intro op body hb
      injection hb with hb; injection hb with h1 h2; subst h2; decide
    · refine ⟨⟨by decide, by decide⟩, trivial, ?_⟩
      intro op body hb
      injection hb with hb; injection hb with h1 h2; subst h2; decide
    · refine ⟨⟨by decide, by decide, by decide, by decide, by decide, by decide⟩, trivial, ?_⟩
      intro op body hb
      injection hb with hb; injection hb with h1 h2; subst h2; decide
  · intro l f now r hm
    simp only [exStreamTrace, exReqObs, List.mem_append, List.mem_cons, List.not_mem_nil, or_false, or_assoc, reduceCtorEq, false_or, Obs.executed.injEq,
      Option.some.injEq] at hm
    rcases hm with ⟨rfl, rfl, rfl, rfl⟩ | ⟨rfl, rfl, rfl, rfl⟩ | ⟨rfl, rfl, rfl, rfl⟩ | ⟨rfl, rfl, rfl, rfl⟩ | ⟨rfl, rfl, rfl, rfl⟩ | ⟨rfl, rfl, rfl, rfl⟩ |
      ⟨rfl, rfl, rfl, rfl⟩ | ⟨rfl, rfl, rfl, rfl⟩ <;> decide
  · intro l p hm
    simp [exStreamTrace, exReqObs] at hm

/-- What the server did in it. -/
def exStreamActs : List (Act (Str × Nat)) :=
  [.did 0 (.sCreate [115] ⟨none⟩) 1 (some .ok), .did 0 (.sPub [115] [0, 7]) 2 (some (.data (wireSeq 1))), .did 0 (.sPub [115] [0, 8]) 3 (some (.data (wireSeq 2))),
   .did 1 (.sJoin [103] [115]) 4 (some (.data (wireJoin 0 1 [97, 97, 97]))), .did 1 (.sFetch [115] [103] [97, 97, 97] 1 10 0) 5 (some (.data exFetch₁)),
   .did 1 (.sAck [115] [103] [97, 97, 97] 1 2) 6 (some .ok), .ticked ([115], 200),
   .did 0 (.sJoin [103] [115]) 201 (some (.data (wireJoin 0 1 [97, 97, 97, 97, 97, 97]))),
   .did 0 (.sFetch [115] [103] [97, 97, 97, 97, 97, 97] 1 10 0) 202 (some (.data exFetch₂))]

theorem exStream_acts : acts exStreamTrace = exStreamActs := rfl

theorem exStream_ok : exStreamEnv.Ok exStreamActs := by
  refine ⟨fun i j _ _ h => ?_, by decide⟩
  have := congrArg List.length h
  simpa [exStreamEnv] using this

theorem exStream_small : Small exStreamActs := by
  refine ⟨?_, by decide⟩
  intro l n pl now r hm
  simp only [exStreamActs, List.mem_cons, List.not_mem_nil, or_false, reduceCtorEq, false_or, Act.did.injEq, Cmd.sPub.injEq, false_and, and_false] at hm
  rcases hm with ⟨_, ⟨_, rfl⟩, rfl, _⟩ | ⟨_, ⟨_, rfl⟩, rfl, _⟩ <;> exact ⟨by decide, by decide⟩

/-- The hypotheses of the theorems above are met.  `C103_faithful` and `C103_values`: the second client's promise. -/
example : exStreamTrace = exStreamTrace.take 14 ++ .settled 1 2 (.answer 3 exFetch₁) :: exStreamTrace.drop 15 ∧
    fetchedMsgs (some (.data exFetch₁)) = [(1, 2, [0, 7]), (2, 3, [0, 8])] ∧ tsFetch exFetch₁ = some [(1, .raw [7]), (2, .raw [8])] := by
  refine ⟨rfl, by decide, by decide⟩

example : ∃ x l y, x ++ .did l (.sPub [115] [0, 8]) 3 (some (.data (wireSeq 2))) :: y <+: acts (exStreamTrace.take 14) ∧ ∀ z ∈ y, ¬ dropsTopic [115] z :=
  C103_faithful exPrinter exStreamServer exStreamPart {} rfl exStreamEvents exStreamRun.symm exStreamOrdinary exStream_ok exStream_small
    (a := exStreamTrace.take 14) (b := exStreamTrace.drop 15) (p := 1) (tag := 2) (d := exFetch₁) (n := [115]) (g := [103]) (c := [97, 97, 97])
    (gen := 1) (lim := 10) (w := 0) rfl (by intro c s hm; simp [exStreamTrace, exReqObs] at hm; exact hm.1) (by decide)

/-- `C103_numbers`: the second publish. -/
example : wireSeq 2 = wireSeq (1 + (exStreamActs.take 2).countP (publishes [115])) :=
  C103_numbers exPrinter exStreamServer exStreamPart {} rfl exStreamEvents exStreamRun.symm exStreamOrdinary exStream_ok exStream_small
    (x := []) (y := exStreamActs.take 2) (z := exStreamActs.drop 3) (l := 0) (now := 3) (n := [115]) (pl := [0, 8]) rfl (.inl rfl)
    (by intro a ha; simp [exStreamActs] at ha; rcases ha with rfl | rfl <;> rintro ⟨_, _, _, e⟩ <;> cases e)

/-- `C103_exclusive`: message 1 is handed out twice; in between the redelivery task ran, 195 ms after the first time. -/
example : exStreamActs = exStreamActs.take 4 ++ .did 1 (.sFetch [115] [103] [97, 97, 97] 1 10 0) 5 (some (.data exFetch₁)) ::
      [.did 1 (.sAck [115] [103] [97, 97, 97] 1 2) 6 (some .ok), .ticked ([115], 200),
       .did 0 (.sJoin [103] [115]) 201 (some (.data (wireJoin 0 1 [97, 97, 97, 97, 97, 97])))] ++
      .did 0 (.sFetch [115] [103] [97, 97, 97, 97, 97, 97] 1 10 0) 202 (some (.data exFetch₂)) :: [] ∧
    1 ∈ fetchedSeqs (some (.data exFetch₁)) ∧ 1 ∈ fetchedSeqs (some (.data exFetch₂)) ∧
    takesBack exStreamEnv exStreamBg (exStreamActs.take 6) [115] [103] [97, 97, 97] 5 (.ticked ([115], 200)) :=
  ⟨rfl, by decide, by decide, .inr (.inr ⟨_, 200, _, rfl, rfl, by decide⟩)⟩

/-- `C103_ack_final`: message 2 was acknowledged. -/
example : 2 ∉ fetchedSeqs (some (.data exFetch₂)) :=
  C103_ack_final exPrinter exStreamServer exStreamPart {} rfl exStreamEvents exStreamRun.symm exStreamOrdinary exStream_ok exStream_small
    (u := exStreamActs.take 5) (v := [.ticked ([115], 200), .did 0 (.sJoin [103] [115]) 201 (some (.data (wireJoin 0 1 [97, 97, 97, 97, 97, 97])))]) (z := [])
    (n := [115]) (g := [103]) (c := [97, 97, 97]) (c' := [97, 97, 97, 97, 97, 97]) (l := 1) (gen := 1) (t := 6) (l' := 0) (gen' := 1) (lim := 10) (w := 0) (now := 202) rfl
    (by intro a ha; simp at ha; rcases ha with rfl | rfl <;> rintro ⟨_, _, _, e⟩ <;> cases e)
    (by intro a ha; simp at ha; rcases ha with rfl | rfl <;> rintro ⟨_, _, _, _, e⟩ <;> cases e)

/-- `C103_ack_holder`: it had been handed to the consumer that acknowledged it. -/
example : exStreamActs = exStreamActs.take 5 ++ .did 1 (.sAck [115] [103] [97, 97, 97] 1 2) 6 (some .ok) :: exStreamActs.drop 6 ∧
    exStreamActs.take 5 = exStreamActs.take 4 ++ .did 1 (.sFetch [115] [103] [97, 97, 97] 1 10 0) 5 (some (.data exFetch₁)) :: [] ∧
    2 ∈ fetchedSeqs (some (.data exFetch₁)) := ⟨rfl, rfl, by decide⟩

/-- `C103_order`: message 1 is handed out after message 2; it had been handed out before. -/
example : ∃ x a y, exStreamActs.take 8 = x ++ a :: y ∧ givesOut [115] [103] 1 a ∧ ∀ b ∈ y, ¬ dropsTopic [115] b ∧ ¬ seeks [115] [103] b := by
  refine C103_order exPrinter exStreamServer exStreamPart {} rfl exStreamEvents exStreamRun.symm exStreamOrdinary exStream_ok exStream_small
    (u := exStreamActs.take 4) (v := (exStreamActs.drop 5).take 3) (z := []) (l := 1) (now := 5) (r := some (.data exFetch₁)) (gen := 1) (lim := 10) (w := 0)
    (c := [97, 97, 97]) (c' := [97, 97, 97, 97, 97, 97]) (l' := 0) (gen' := 1) (lim' := 10) (w' := 0) (now' := 202) rfl
    (s := 1) (s' := 2) (by decide) (by decide) (by decide) ?_ ?_
  · intro a ha
    simp [exStreamActs] at ha
    rcases ha with rfl | rfl | rfl <;> rintro ⟨_, _, _, e⟩ <;> cases e
  · intro a ha
    simp [exStreamActs] at ha
    rcases ha with rfl | rfl | rfl <;> rintro ⟨_, _, _, _, e⟩ <;> cases e

/-- `C103_no_gap`: message 2 is handed out, so message 1 has been, or is in the same answer. -/
example : givesOut [115] [103] 1 (Act.did (I := Str × Nat) 1 (.sFetch [115] [103] [97, 97, 97] 1 10 0) 5 (some (.data exFetch₁))) ∨
    ∃ a ∈ exStreamActs.take 4, givesOut [115] [103] 1 a := by
  refine C103_no_gap exPrinter exStreamServer exStreamPart {} rfl exStreamEvents exStreamRun.symm exStreamOrdinary exStream_ok exStream_small
    (x := []) (y := exStreamActs.take 4) (z := exStreamActs.drop 5) rfl (s := 2) (by decide) (by decide) (by decide) (.inl rfl) ?_ ?_
  · intro a ha
    simp [exStreamActs] at ha
    rcases ha with rfl | rfl | rfl | rfl <;> rintro ⟨_, _, _, _, e⟩ <;> cases e
  · rintro a ha ⟨x, rfl, hx⟩
    injection hx with hx
    injection hx with _ hx
    cases hx

/-- `C103_limit`: message 1 is handed out as often as allowed. -/
example : exStreamActs = [] ++ exStreamActs ++ [] ∧ timesGiven [115] [103] 1 exStreamActs = 2 ∧ exStreamEnv.sys.maxDeliveries = 2 := ⟨rfl, by decide, rfl⟩

/-- `C104_answered_first_partial`: the second publish was made after the first was answered. -/
example : beVal (wireSeq 1) < beVal (wireSeq 2) := by
  refine C104_answered_first_partial exPrinter exStreamServer exStreamPart {} rfl exStreamEvents exStreamRun.symm exStreamOrdinary exStream_ok exStream_small
    (a := exStreamTrace.take 5) (b := (exStreamTrace.drop 6).take 2) (c := exStreamTrace.drop 9) (p := 0) (tag := 2) (p₂ := 0) (tag₂ := 3)
    (n := [115]) (pl := [0, 7]) (pl₂ := [0, 8]) rfl ?_ ?_ ?_ ?_
  · intro c s hm; simp [exStreamTrace, exReqObs] at hm; exact hm.1
  · intro c s hm; simp [exStreamTrace, exReqObs] at hm; exact hm.1
  · intro c s hm; simp [exStreamTrace, exReqObs] at hm
  · intro a ha
    rw [exStream_acts] at ha
    simp [exStreamActs] at ha
    rcases ha with rfl | rfl | rfl | rfl | rfl | rfl | rfl | rfl | rfl <;> rintro ⟨_, _, _, e⟩ <;> cases e

/-! ### Pipelined publishes -/

/-- One client publishes two messages without waiting, and fetches when both are answered. -/
def exPipelinedPubs : List (Ev (Str × Nat)) :=
  [.lib 0 .connect, .lib 0 .opened]
  ++ exReq 0 0 1 1 (.sCreate [115] ⟨none⟩)
  ++ [.call 0 2 5000 0 (.sPub [115] (tsAny (.raw [7]))), .call 0 3 5000 0 (.sPub [115] (tsAny (.raw [8]))), .toServer 0 100, .server 0 2 .spawn, .server 0 2 .spawn,
      .server 0 2 (.complete 1), .server 0 2 (.complete 0), .server 0 2 (.post 0), .server 0 2 (.post 0), .server 0 2 .write, .server 0 2 .write, .toClient 0 100]
  ++ exReq 0 0 4 4 (.sJoin [103] [115])
  ++ exReq 0 0 5 5 (.sFetch [115] [103] [97, 97, 97] 1 10 0)

/-- **C104 is violated.**  Nothing orders the tasks of one connection: a client publishes one message and then another on the same topic; both
are answered, and a consumer gets the second message as number 1 and the first one as number 2. -/
theorem C104_violated : ∃ (es : List (Ev (Str × Nat))) (f₁ f₂ f₃ f₄ f₅ : Frame) (d : Bytes), f₁.id = 1 ∧ f₂.id = 2 ∧ f₃.id = 3 ∧ f₄.id = 4 ∧ f₅.id = 5 ∧
    ((World.init {}).run exPrinter exStreamServer es).2 =
      [.called 0 1 (.sCreate [115] ⟨none⟩) (some (0, 1)), .executed 0 f₁ 1 (some .ok), .settled 0 1 (.answer 0 []),
       .called 0 2 (.sPub [115] (tsAny (.raw [7]))) (some (0, 2)), .called 0 3 (.sPub [115] (tsAny (.raw [8]))) (some (0, 3)),
       .executed 0 f₃ 2 (some (.data (wireSeq 1))), .executed 0 f₂ 2 (some (.data (wireSeq 2))),
       .settled 0 3 (.answer 3 (wireSeq 1)), .settled 0 2 (.answer 3 (wireSeq 2)),
       .called 0 4 (.sJoin [103] [115]) (some (0, 4)), .executed 0 f₄ 4 (some (.data (wireJoin 0 1 [97, 97, 97]))),
       .settled 0 4 (.answer 3 (wireJoin 0 1 [97, 97, 97])),
       .called 0 5 (.sFetch [115] [103] [97, 97, 97] 1 10 0) (some (0, 5)), .executed 0 f₅ 5 (some (.data d)), .settled 0 5 (.answer 3 d)] ∧
    tsFetch d = some [(1, .raw [8]), (2, .raw [7])] := by
  refine ⟨exPipelinedPubs, ⟨1, 48, 1, [0, 0, 0, 1, 115, 0, 0, 0, 2, 123, 125]⟩, ⟨1, 49, 2, [0, 0, 0, 1, 115, 0, 7]⟩, ⟨1, 49, 3, [0, 0, 0, 1, 115, 0, 8]⟩,
    ⟨1, 51, 4, [0, 0, 0, 1, 103, 0, 0, 0, 1, 115]⟩,
    ⟨1, 50, 5, [0, 0, 0, 1, 115, 0, 0, 0, 1, 103, 0, 0, 0, 3, 97, 97, 97, 0, 0, 0, 0, 0, 0, 0, 1, 0, 0, 0, 10, 0, 0, 0, 0]⟩,
    wireFetch [⟨1, 2, [0, 8]⟩, ⟨2, 2, [0, 7]⟩], rfl, rfl, rfl, rfl, rfl, ?_, by decide⟩
  set_option maxRecDepth 100000 in decide

end Verif.Rpc
