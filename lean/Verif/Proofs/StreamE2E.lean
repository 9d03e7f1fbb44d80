import Verif.Spec.StreamE2E
import Verif.Proofs.QueueE2E
import Verif.Proofs.SdkStream
import Verif.Proofs.StreamPending
import Verif.Props.Stream
import Verif.Props.StreamGroups
import Verif.Props.StreamLog

/-! # Proofs about consumers, network and topic together -/

namespace Verif.Stream

/-! ## Acknowledged messages -/

theorem fate_acked {max wait s : Nat} {f : Fate} {ob : Obs} (h : f.step max wait s ob = .acked) : f = .acked ∨ ob = .acked s := by
  cases ob with
  | delivered c now s' =>
    simp only [Fate.step] at h
    split at h
    · cases h
    · exact .inl h
  | acked s' =>
    simp only [Fate.step] at h
    split at h
    · next hh => exact .inr (by rw [hh])
    · exact .inl h
  | left who =>
    cases f <;> first
      | exact .inl h
      | (simp only [Fate.step] at h
         split at h
         · simp only [Fate.release] at h; split at h <;> cases h
         · cases h)
  | tick now =>
    cases f <;> first
      | exact .inl h
      | (simp only [Fate.step] at h
         split at h
         · simp only [Fate.release] at h; split at h <;> cases h
         · cases h)
  | removed head =>
    have : (if s < head then Fate.removed else f) = .acked := by cases f <;> exact h
    split at this
    · cases this
    · exact .inl this
  | restarted first =>
    have : (if first ≤ s then Fate.fresh else .skipped) = .acked := by cases f <;> exact h
    split at this <;> cases this

theorem fates_acked {max wait s : Nat} {F : Nat → Fate} {ob : Obs} (h : fates max wait F ob s = .acked) (hn : ob ≠ .acked s) : F s = .acked :=
  (fate_acked h).resolve_right hn

theorem obs_acked {max wait s : Nat} {v : View} (ob : Obs) (h : (v.obs max wait [ob]).fate s = .acked) (hn : ob ≠ .acked s) : v.fate s = .acked :=
  fates_acked (F := v.fate) h hn

theorem foldl_acked {max wait s now : Nat} {c : Str} (ms : List Msg) (F : Nat → Fate)
    (h : (deliveries c now ms).foldl (fates max wait) F s = .acked) : F s = .acked := by
  induction ms generalizing F with
  | nil => exact h
  | cons m ms ih => exact fates_acked (ih _ h) (by intro hh; cases hh)

theorem answer_acked {max wait s now : Nat} {name : Str} {v : View} {o : Out} (h : (v.answer max wait name now o).fate s = .acked) :
    v.fate s = .acked := by
  unfold View.answer at h
  split at h
  · split at h
    · exact foldl_acked _ _ h
    · exact h
  · exact h

theorem view_acked {max wait s : Nat} {name : Str} {v : View} {e : Ev} {o : Out} (h : (v.step max wait name (e, o)).fate s = .acked) :
    v.fate s = .acked ∨ ∃ c gen, e = .ack name c gen s := by
  cases e with
  | join g conn c =>
    simp only [View.step] at h
    split at h
    · left
      simp only at h
      split at h
      · exact h
      · exact obs_acked _ h (by intro hh; cases hh)
    · exact .inl h
  | leave g c gen order =>
    cases o with
    | ok =>
      simp only [View.step] at h
      split at h
      · exact .inl (obs_acked _ h (by intro hh; cases hh))
      · exact .inl h
    | _ => exact .inl h
  | disconnect conn order => exact .inl (obs_acked _ h (by intro hh; cases hh))
  | attempt id now => exact .inl (answer_acked h)
  | finish id now => exact .inl (answer_acked h)
  | ack g c gen s' =>
    cases o with
    | ok =>
      simp only [View.step] at h
      split at h
      · next hg =>
        by_cases hs : s' = s
        · subst hs; subst hg; exact .inr ⟨c, gen, rfl⟩
        · exact .inl (obs_acked _ h (by intro hh; cases hh; exact hs rfl))
      · exact .inl h
    | _ => exact .inl h
  | seek g b =>
    simp only [View.step] at h
    split at h
    · exact .inl (obs_acked (max := max) (wait := wait) (.restarted (if b = true then v.next else v.head)) h (by intro hh; cases hh))
    · exact .inl h
  | tick now order => exact .inl (obs_acked _ h (by intro hh; cases hh))
  | retainDone =>
    cases o with
    | retained head => exact .inl (obs_acked (max := max) (wait := wait) (.removed head) h (by intro hh; cases hh))
    | _ => exact .inl h
  | _ => exact .inl h

/-- A message is acknowledged only by an acknowledgement. -/
theorem acked_event {crc : Bytes → Nat} {t : Topic} {name : Str} {es : List Ev} {s : Nat}
    (h : (viewAfter crc t name es).fate s = .acked) : ∃ c gen, .ack name c gen s ∈ es := by
  induction es using Verif.Sdk.snoc_ind with
  | h0 =>
    have : (View.start t name).fate s = .acked := h
    simp only [View.start] at this
    split at this
    · split at this <;> cases this
    · cases this
  | h1 es e ih =>
    rw [viewAfter_snoc] at h
    rcases view_acked h with h | ⟨c, gen, h⟩
    · obtain ⟨c, gen, hc⟩ := ih h
      exact ⟨c, gen, List.mem_append_left _ hc⟩
    · exact ⟨c, gen, by simp [h]⟩

end Verif.Stream

namespace Verif.StreamE2E

open Verif.Stream (Msg Topic GErr)
open Verif.Sdk.StreamLoop (Loop Ev Member inProgress)

variable (crc : Bytes → Nat) (o : Options)

theorem run_append (s : Net) (a b : List Event) : s.run crc o (a ++ b) = (s.run crc o a).run crc o b := by
  induction a generalizing s with
  | nil => rfl
  | cons e a ih => exact ih _

theorem run_snoc (s : Net) (a : List Event) (e : Event) : s.run crc o (a ++ [e]) = (s.run crc o a).step crc o e := by
  rw [run_append]; rfl

theorem calls_snoc (s : Net) (a : List Event) (e : Event) : calls crc o s (a ++ [e]) = calls crc o s a ++ calledBy o (s.run crc o a) e := by
  induction a generalizing s with
  | nil => simp [calls, Net.run]
  | cons x a ih => simp only [List.cons_append, calls, ih, List.append_assoc]; rfl

theorem callsOf_snoc (k : Nat) (s : Net) (a : List Event) (e : Event) : callsOf crc o k s (a ++ [e]) = callsOf crc o k s a ++ callsBy o (s.run crc o a) k e := by
  induction a generalizing s with
  | nil => simp [callsOf, Net.run]
  | cons x a ih => simp only [List.cons_append, callsOf, ih, List.append_assoc]; rfl

theorem processed_append (s : Net) (a b : List Event) : processed crc o s (a ++ b) = processed crc o s a ++ processed crc o (s.run crc o a) b := by
  induction a generalizing s with
  | nil => rfl
  | cons x a ih => simp only [List.cons_append, processed, ih, List.append_assoc]; rfl

theorem processed_snoc (s : Net) (a : List Event) (e : Event) : processed crc o s (a ++ [e]) = processed crc o s a ++ doneBy (s.run crc o a) e := by
  rw [processed_append]; simp [processed]

theorem serverEvents_append (s : Net) (a b : List Event) :
    serverEvents crc o s (a ++ b) = serverEvents crc o s a ++ serverEvents crc o (s.run crc o a) b := by
  induction a generalizing s with
  | nil => rfl
  | cons x a ih => simp only [List.cons_append, serverEvents, ih, List.append_assoc]; rfl

theorem serverEvents_snoc (s : Net) (a : List Event) (e : Event) :
    serverEvents crc o s (a ++ [e]) = serverEvents crc o s a ++ serverEvent o (s.run crc o a) e := by
  rw [serverEvents_append]; simp [serverEvents]

/-- Is it a step of a client that counts? -/
def plain : Ev → Prop
  | .delivered _ => False
  | .joined _ => False
  | _ => True

theorem step_client (s : Net) (k : Nat) {e : Ev} (h : plain e) : s.step crc o (.client k e) = clientStep o s k e := by
  cases e <;> first | rfl | exact h.elim

theorem step_not_client (s : Net) (k : Nat) {e : Ev} (h : ¬ plain e) : s.step crc o (.client k e) = s := by
  cases e <;> first | rfl | exact absurd trivial h

theorem answerFetch_topic (s : Net) (k no : Nat) (x : Except GErr (List Msg)) : (answerFetch s k no x).topic = s.topic ∧
    (answerFetch s k no x).clients = s.clients ∧ (answerFetch s k no x).requests = s.requests ∧ (answerFetch s k no x).nextNo = s.nextNo ∧
    (answerFetch s k no x).working = s.working ∧ (answerFetch s k no x).ids = s.ids := by
  cases x <;> exact ⟨rfl, rfl, rfl, rfl, rfl, rfl⟩

/-- What a step of the server does. -/
inductive SStep (s : Net) (e : Stream.Ev) : Net → Prop where
  | silent : SStep s e { s with topic := (s.topic.step crc e).1 }
  | answer (id k no : Nat) (q : Stream.Query) (x : Except GErr (List Msg)) (he : fetchOf e = some id)
      (hx : (s.topic.step crc e).2 = .fetched q x) (hw : mget s.working id = some (k, no)) :
      SStep s e (answerFetch { s with topic := (s.topic.step crc e).1, working := mdel s.working id } k no x)

theorem serverStep_cases (s : Net) (e : Stream.Ev) : SStep crc s e (serverStep crc s e) := by
  unfold serverStep
  simp only
  split
  · next id q x he hx =>
    split
    · next k no hw => exact .answer id k no q x he hx hw
    · exact .silent
  · exact .silent

/-- What the execution of a request does. -/
inductive XStep (s : Net) (conn consumer : Str) (order : List Nat) : Request → Net → Prop where
  | join (k no f : Nat) (c : Str) (gen : Nat) (h : (s.topic.step crc (.join o.group conn consumer)).2 = .joined f c gen) :
      XStep s conn consumer order (.join k no)
        { s with topic := (s.topic.step crc (.join o.group conn consumer)).1, ids := s.ids ++ [c]
                 answers := s.answers ++ [{ k, no, body := .joined { id := s.ids.length, generation := gen } }] }
  | refused (k no : Nat) (c : Str) (gen : Nat) (q : Stream.Query) (x : GErr)
      (h : (s.topic.step crc (.fetch o.group c gen (o.batchSize k) (o.poll k))).2 = .fetched q (.error x)) :
      XStep s conn consumer order (.fetch k no c gen)
        { s with topic := (s.topic.step crc (.fetch o.group c gen (o.batchSize k) (o.poll k))).1
                 answers := s.answers ++ [{ k, no, body := .error x }] }
  | start (k no : Nat) (c : Str) (gen : Nat) (h : (s.topic.step crc (.fetch o.group c gen (o.batchSize k) (o.poll k))).2 = .none) :
      XStep s conn consumer order (.fetch k no c gen)
        { s with topic := (s.topic.step crc (.fetch o.group c gen (o.batchSize k) (o.poll k))).1
                 working := mset s.working s.topic.nextOp (k, no) }
  | ack (c : Str) (gen seq : Nat) :
      XStep s conn consumer order (.ack c gen seq) { s with topic := (s.topic.step crc (.ack o.group c gen seq)).1 }
  | leave (c : Str) (gen : Nat) :
      XStep s conn consumer order (.leave c gen) { s with topic := (s.topic.step crc (.leave o.group c gen order)).1 }

theorem execStep_cases (s : Net) (q : Request) (conn consumer : Str) (order : List Nat) :
    XStep crc o s conn consumer order q (execStep crc o s q conn consumer order) := by
  cases q with
  | join k no =>
    have : ∃ f gen, (s.topic.step crc (.join o.group conn consumer)).2 = .joined f consumer gen := ⟨_, _, rfl⟩
    obtain ⟨f, gen, h⟩ := this
    unfold execStep
    simp only [Request.ev, h]
    exact .join k no f _ gen h
  | fetch k no c gen =>
    unfold execStep
    simp only [Request.ev]
    have hx : (∃ q x, (s.topic.step crc (.fetch o.group c gen (o.batchSize k) (o.poll k))).2 = .fetched q (.error x)) ∨
        (s.topic.step crc (.fetch o.group c gen (o.batchSize k) (o.poll k))).2 = .none := by
      simp only [Topic.step]
      split
      · exact .inl ⟨_, _, rfl⟩
      · exact .inr rfl
    rcases hx with ⟨q, x, hx⟩ | hx
    · rw [hx]; exact .refused k no c gen q x hx
    · rw [hx]; exact .start k no c gen hx
  | ack c gen seq => exact .ack c gen seq
  | leave c gen => exact .leave c gen

theorem XStep.frame {s s' : Net} {conn consumer : Str} {order : List Nat} {q : Request} (h : XStep crc o s conn consumer order q s') :
    s'.topic = (s.topic.step crc (q.ev o conn consumer order)).1 ∧ s'.clients = s.clients ∧ s'.requests = s.requests ∧
    s'.nextNo = s.nextNo ∧ s'.deliveries = s.deliveries := by
  cases h <;> exact ⟨rfl, rfl, rfl, rfl, rfl⟩

theorem SStep.frame {s s' : Net} {e : Stream.Ev} (h : SStep crc s e s') :
    s'.topic = (s.topic.step crc e).1 ∧ s'.clients = s.clients ∧ s'.requests = s.requests ∧ s'.nextNo = s.nextNo ∧ s'.ids = s.ids := by
  cases h with
  | silent => exact ⟨rfl, rfl, rfl, rfl, rfl⟩
  | answer id k no q x he hx hw =>
    obtain ⟨h1, h2, h3, h4, _, h5⟩ := answerFetch_topic { s with topic := (s.topic.step crc e).1, working := mdel s.working id } k no x
    exact ⟨h1, h2, h3, h4, h5⟩

theorem receiveStep_fields (s : Net) (a : Answer) (ok : Bool) : (receiveStep o s a ok).topic = s.topic ∧
    (receiveStep o s a ok).answers = s.answers ∧ (receiveStep o s a ok).deliveries = s.deliveries ∧
    (receiveStep o s a ok).working = s.working ∧ (receiveStep o s a ok).ids = s.ids := by
  unfold receiveStep
  split <;> exact ⟨rfl, rfl, rfl, rfl, rfl⟩

theorem topic_step (s : Net) (e : Event) : (s.step crc o e).topic = s.topic.run crc (serverEvent o s e) := by
  cases e with
  | client k e => cases e <;> rfl
  | exec i conn c order =>
    simp only [Net.step, serverEvent]
    cases s.requests[i]? with
    | none => rfl
    | some q => exact ((execStep_cases crc o _ q conn c order).frame).1
  | receive i ok =>
    simp only [Net.step, serverEvent]
    cases s.answers[i]? with
    | none => rfl
    | some a => exact (receiveStep_fields o _ a ok).1
  | server e => exact ((serverStep_cases crc s e).frame).1
  | _ => rfl

theorem topic_run (s : Net) (es : List Event) : (s.run crc o es).topic = s.topic.run crc (serverEvents crc o s es) := by
  induction es generalizing s with
  | nil => rfl
  | cons e es ih => rw [serverEvents, Stream.run_append, ← topic_step]; exact ih _

/-! ## Acknowledgements come from finished callbacks -/

theorem mem_server {s : Net} {es : List Event} {x : Stream.Ev} (h : x ∈ serverEvents crc o s es) :
    .server x ∈ es ∨ ∃ a i conn c order b q, es = a ++ .exec i conn c order :: b ∧ (s.run crc o a).requests[i]? = some q ∧ x = q.ev o conn c order := by
  induction es generalizing s with
  | nil => cases h
  | cons e es ih =>
    rw [serverEvents] at h
    rcases List.mem_append.1 h with h | h
    · cases e with
      | exec i conn c order =>
        simp only [serverEvent] at h
        cases hq : s.requests[i]? with
        | none => rw [hq] at h; cases h
        | some q =>
          rw [hq] at h
          exact .inr ⟨[], i, conn, c, order, es, q, rfl, hq, List.mem_singleton.1 h⟩
      | server y => rw [List.mem_singleton.1 h]; exact .inl (by simp)
      | client => cases h
      | loseRequest => cases h
      | loseAnswer => cases h
      | receive => cases h
    · rcases ih h with h | ⟨a, i, conn, c, order, b, q, h1, h2, h3⟩
      · exact .inl (List.mem_cons_of_mem _ h)
      · exact .inr ⟨e :: a, i, conn, c, order, b, q, by rw [h1]; rfl, h2, h3⟩

theorem ack_sent {s : Net} {k : Nat} {e : Ev} {c : Str} {gen n : Nat}
    (h0 : .ack c gen n ∈ (Sdk.StreamLoop.step (o.concurrency k) (s.clients k).loop e).2.flatMap (sends s.ids s.deliveries k s.nextNo)) :
    n ∈ doneBy s (.client k e) := by
  obtain ⟨x, hx, h⟩ := List.mem_flatMap.1 h0
  cases x with
  | ack d m =>
    obtain ⟨h1, t, r, f, hp, hm⟩ := Sdk.StreamLoop.ack_event _ hx
    subst h1
    simp only [sends, List.mem_flatMap, List.mem_map] at h
    obtain ⟨y, hy, z, hz, h⟩ := h
    cases h
    have : m ∈ inProgress (s.clients k).loop := by simp only [inProgress, hp]; exact hm
    simp only [doneBy, this, if_true, List.mem_map]
    exact ⟨z, hz, rfl⟩
  | fetch d =>
    simp only [sends, List.mem_map] at h
    obtain ⟨y, hy, h⟩ := h
    cases h
  | leave d =>
    simp only [sends, List.mem_map] at h
    obtain ⟨y, hy, h⟩ := h
    cases h
  | join => simp [sends] at h
  | call => simp [sends] at h
  | finished => simp [sends] at h

theorem doneBy_client {s : Net} {k : Nat} {e : Ev} {n : Nat} (h : n ∈ doneBy s (.client k e)) : ∃ m up, e = .returned m true up := by
  unfold doneBy at h
  split at h
  · next hh => cases hh; exact ⟨_, _, rfl⟩
  · cases h

/-- The acknowledgements on their way after a step were on their way before, or a client sends them. -/
theorem mem_requests {s : Net} {e : Event} {c : Str} {gen n : Nat} (h : .ack c gen n ∈ (s.step crc o e).requests) :
    .ack c gen n ∈ s.requests ∨ n ∈ doneBy s e := by
  have cl : ∀ {s' : Net} {k : Nat} {e : Ev}, .ack c gen n ∈ (clientStep o s' k e).requests → .ack c gen n ∈ s'.requests ∨ n ∈ doneBy s' (.client k e) := by
    intro s' k e h
    rcases List.mem_append.1 h with h | h
    · exact .inl h
    · exact .inr (ack_sent o h)
  cases e with
  | client k e =>
    by_cases hp : plain e
    · rw [step_client crc o s k hp] at h; exact cl h
    · rw [step_not_client crc o s k hp] at h; exact .inl h
  | exec i conn d order =>
    left
    simp only [Net.step] at h
    cases hq : s.requests[i]? with
    | none => rw [hq] at h; exact h
    | some q =>
      rw [hq] at h
      simp only [((execStep_cases crc o _ q conn d order).frame).2.2.1] at h
      exact List.mem_of_mem_eraseIdx h
  | loseRequest i => exact .inl (List.mem_of_mem_eraseIdx h)
  | receive i ok =>
    left
    simp only [Net.step] at h
    cases hq : s.answers[i]? with
    | none => rw [hq] at h; exact h
    | some a =>
      rw [hq] at h
      simp only [receiveStep] at h
      split at h
      · rcases cl h with h | h
        · exact h
        · obtain ⟨m, up, he⟩ := doneBy_client h
          exfalso
          unfold Body.ev at he
          split at he
          · cases he
          · cases he
          · split at he <;> cases he
          · split at he <;> cases he
      · exact h
  | loseAnswer i => exact .inl h
  | server x => left; simp only [Net.step] at h; rw [((serverStep_cases crc s x).frame).2.2.1] at h; exact h

theorem requests_processed (t : Topic) (es : List Event) {c : Str} {gen n : Nat} (h : .ack c gen n ∈ ((Net.new t).run crc o es).requests) :
    n ∈ processed crc o (Net.new t) es := by
  induction es using Verif.Sdk.snoc_ind with
  | h0 => cases h
  | h1 es e ih =>
    rw [run_snoc] at h
    rw [processed_snoc]
    rcases mem_requests crc o h with h | h
    · exact List.mem_append_left _ (ih h)
    · exact List.mem_append_right _ h

theorem acks_processed (t : Topic) {es : List Event} {c : Str} {gen n : Nat} (h : .ack o.group c gen n ∈ serverEvents crc o (Net.new t) es) :
    n ∈ processed crc o (Net.new t) es ∨ AckedByOther o es n := by
  rcases mem_server crc o h with h | ⟨a, i, conn, d, order, b, q, h1, h2, h3⟩
  · exact .inr ⟨c, gen, h⟩
  · left
    cases q with
    | join => cases h3
    | fetch => cases h3
    | leave => cases h3
    | ack d' gen' n' =>
      cases h3
      rw [h1, processed_append]
      exact List.mem_append_left _ (requests_processed crc o t a (List.mem_of_getElem? h2))

/-! ## Fresh consumer ids -/

theorem joinIds_sub (s : Net) (es : List Event) : (Stream.joinIds o.group (serverEvents crc o s es)).Sublist (newIds es) := by
  induction es generalizing s with
  | nil => exact List.Sublist.refl _
  | cons e es ih =>
    rw [serverEvents, Stream.joinIds_append]
    cases e with
    | exec i conn c order =>
      simp only [serverEvent, newIds]
      cases s.requests[i]? with
      | none => exact (ih _).cons _
      | some q =>
        cases q with
        | join k no => simp only [Request.ev, Stream.joinIds, if_true, List.cons_append, List.nil_append]; exact (ih _).cons_cons _
        | fetch => exact (ih _).cons _
        | ack => exact (ih _).cons _
        | leave => exact (ih _).cons _
    | server x =>
      cases x with
      | join g conn c =>
        simp only [serverEvent, newIds, Stream.joinIds]
        split
        · exact (ih _).cons_cons _
        · exact (ih _).cons _
      | _ => exact ih _
    | _ => exact ih _

end Verif.StreamE2E
