import Verif.Spec.Session
import Verif.Props.PubSub
import Verif.Proofs.StreamTrace

/-! # Proofs: the end of a connection -/

namespace Verif.Session

open Verif

/-! ### Histories of the brokers -/

theorem opsOf_append (a b : List Req) : opsOf (a ++ b) = opsOf a ++ opsOf b := by
  induction a with
  | nil => rfl
  | cons r a ih =>
    cases r with
    | ps op => simp only [List.cons_append, opsOf, ih]
    | st n e => simp only [List.cons_append, opsOf, ih]

theorem eventsOf_append (n : Str) (a b : List Req) : eventsOf n (a ++ b) = eventsOf n a ++ eventsOf n b := by
  induction a with
  | nil => rfl
  | cons r a ih =>
    cases r with
    | ps op => simp only [List.cons_append, eventsOf, ih]
    | st m e =>
      simp only [List.cons_append, eventsOf, ih]
      split <;> rfl

theorem mem_opsOf {op : PubSub.Op} {rs : List Req} : op ∈ opsOf rs ↔ Req.ps op ∈ rs := by
  induction rs with
  | nil => simp [opsOf]
  | cons r rs ih => cases r <;> simp [opsOf, ih]

theorem mem_eventsOf {n : Str} {e : Stream.Ev} {rs : List Req} : e ∈ eventsOf n rs ↔ Req.st n e ∈ rs := by
  induction rs with
  | nil => simp [eventsOf]
  | cons r rs ih =>
    cases r with
    | ps op => simp [eventsOf, ih]
    | st m e' =>
      simp only [eventsOf]
      by_cases h : m = n
      · subst h; rw [if_pos rfl]; simp [ih]
      · rw [if_neg h]; simp [ih, h]
        intro h'; exact absurd h'.symm h

theorem run_pubsub (dflt : Nat) (crc : Bytes → Nat) (rs : List Req) (w : World) :
    (w.run dflt crc rs).pubsub = (PubSub.run dflt w.pubsub (opsOf rs)).1 := by
  induction rs generalizing w with
  | nil => rfl
  | cons r rs ih =>
    rw [World.run, List.foldl_cons, ← World.run, ih]
    cases r with
    | ps op => simp only [World.exec, opsOf, PubSub.run]
    | st n e => simp only [World.exec, opsOf]

theorem run_topics (dflt : Nat) (crc : Bytes → Nat) (rs : List Req) (w : World) (n : Str) :
    mget (w.run dflt crc rs).topics n = (mget w.topics n).map (fun t => t.run crc (eventsOf n rs)) := by
  induction rs generalizing w with
  | nil => simp [World.run, eventsOf, Stream.Topic.run]
  | cons r rs ih =>
    rw [World.run, List.foldl_cons, ← World.run, ih]
    cases r with
    | ps op => simp only [World.exec, eventsOf]
    | st m e =>
      simp only [World.exec, eventsOf, mget_mupd]
      by_cases h : m = n
      · subst h
        rw [if_pos rfl, if_pos rfl]
        cases mget w.topics m <;> rfl
      · rw [if_neg (fun h' => h h'.symm), if_neg h]

/-! ### The course of a connection -/

theorem run_append (a b : List SEv) (c : Conn) :
    c.run (a ++ b) = (((c.run a).1.run b).1, (c.run a).2 ++ ((c.run a).1.run b).2) := by
  induction a generalizing c with
  | nil => simp [Conn.run]
  | cons e a ih => simp only [List.cons_append, Conn.run, ih, List.append_assoc]

/-- The connection has left topic `n`, and nobody has joined over it since. -/
def Left (conn : Str) (n : Str) (h : List Req) : Prop :=
  ∃ a order b, h = a ++ .st n (.disconnect conn order) :: b ∧ ∀ r ∈ b, r.joinsOver conn = false

/-- It has left the pub-sub broker. -/
def LeftPs (cid : PubSub.Cid) (h : List Req) : Prop :=
  ∃ a b, h = a ++ .ps (.disconnect cid) :: b ∧ Req.ps (.connect cid) ∈ a

theorem Left.append {conn n : Str} {h x : List Req} (hl : Left conn n h) (hx : ∀ r ∈ x, r.joinsOver conn = false) :
    Left conn n (h ++ x) := by
  obtain ⟨a, o, b, rfl, hb⟩ := hl
  refine ⟨a, o, b ++ x, by simp, fun r hr => ?_⟩
  rcases List.mem_append.1 hr with hr | hr
  · exact hb r hr
  · exact hx r hr

theorem LeftPs.append {cid : PubSub.Cid} {h x : List Req} (hl : LeftPs cid h) : LeftPs cid (h ++ x) := by
  obtain ⟨a, b, rfl, hb⟩ := hl
  exact ⟨a, b ++ x, by simp, hb⟩

/-- No task has still to join. -/
def Calm (c : Conn) : Prop := ∀ t ∈ c.tasks, ∀ r ∈ t.todo, r.joinsOver c.conn = false

/-- The invariant of a connection `c` and the history `h` of the brokers. -/
def CInv (c : Conn) (h : List Req) : Prop :=
  match c.status with
  | .fresh => True
  | .serving => Req.ps (.connect c.cid) ∈ h
  | .ended => Req.ps (.connect c.cid) ∈ h
  | .aborted => Req.ps (.connect c.cid) ∈ h ∧ Calm c
  | .leaving todo => LeftPs c.cid h ∧ Calm c ∧ ∀ n ∈ c.topics, n ∉ todo → Left c.conn n h
  | .closed => LeftPs c.cid h ∧ Calm c ∧ ∀ n ∈ c.topics, Left c.conn n h
  | .failed => True

theorem mem_modify {α : Type} {f : α → α} : ∀ {l : List α} {i : Nat} {x : α}, x ∈ l.modify i f → x ∈ l ∨ ∃ y ∈ l, x = f y
  | [], i, x, h => by cases i <;> simp at h
  | y :: l, 0, x, h => by
    simp only [List.modify_zero_cons, List.mem_cons] at h
    rcases h with h | h
    · exact .inr ⟨y, by simp, h⟩
    · exact .inl (by simp [h])
  | y :: l, i + 1, x, h => by
    simp only [List.modify_succ_cons, List.mem_cons] at h
    rcases h with h | h
    · exact .inl (by simp [h])
    · rcases mem_modify h with h | ⟨z, hz, h⟩
      · exact .inl (by simp [h])
      · exact .inr ⟨z, by simp [hz], h⟩

/-- The invariant depends on the state of the connection only through these. -/
theorem CInv.frame {c c' : Conn} {h x : List Req} (hi : CInv c h) (h1 : c'.cid = c.cid) (h2 : c'.conn = c.conn)
    (h3 : c'.topics = c.topics) (h4 : c'.status = c.status) (hc : Calm c → Calm c')
    (hx : Calm c → ∀ r ∈ x, r.joinsOver c.conn = false) : CInv c' (h ++ x) := by
  unfold CInv at *
  rw [h4]
  cases hs : c.status <;> simp only [hs] at hi ⊢
  · rw [h1]; exact List.mem_append_left _ hi
  · rw [h1]; exact List.mem_append_left _ hi
  · rw [h1]; exact ⟨List.mem_append_left _ hi.1, hc hi.2⟩
  · rw [h1, h2, h3]; exact ⟨hi.1.append, hc hi.2.1, fun n hn ht => (hi.2.2 n hn ht).append (hx hi.2.1)⟩
  · rw [h1, h2, h3]; exact ⟨hi.1.append, hc hi.2.1, fun n hn => (hi.2.2 n hn).append (hx hi.2.1)⟩

theorem step_same (c : Conn) (e : SEv) :
    (c.step e).1.cid = c.cid ∧ (c.step e).1.conn = c.conn ∧ (c.step e).1.topics = c.topics := by
  cases e <;> simp only [Conn.step] <;> (repeat' split) <;> simp [Conn.abortAll]

theorem CInv.step {c : Conn} {h : List Req} (hi : CInv c h) (e : SEv)
    (hq : c.status = .ended → e.isCleanup = true →
      ∀ t ∈ c.tasks, t.polled = true → ∀ r ∈ t.todo, r.joinsOver c.conn = false)
    (ho : ∀ r, e = .other r → r.joinsOver c.conn = false) :
    CInv (c.step e).1 (h ++ (c.step e).2) := by
  have same : CInv c (h ++ []) := by rw [List.append_nil]; exact hi
  cases e with
  | accept =>
    simp only [Conn.step]
    cases hs : c.status <;> simp only <;> try exact same
    simp only [CInv]; simp
  | spawn todo =>
    simp only [Conn.step]
    cases hs : c.status <;> simp only <;> try exact same
    simp only [CInv, hs] at hi ⊢
    simpa using hi
  | poll i =>
    simp only [Conn.step]
    refine hi.frame rfl rfl rfl rfl (fun hc t ht r hr => ?_) (by simp)
    rcases mem_modify ht with ht | ⟨y, hy, rfl⟩
    · exact hc t ht r hr
    · exact hc y hy r hr
  | work i =>
    simp only [Conn.step]
    split
    · next r rest heq =>
      have hm : (⟨true, r :: rest⟩ : Task) ∈ c.tasks := List.mem_of_getElem? heq
      refine hi.frame rfl rfl rfl rfl (fun hc t ht x hx => ?_) (fun hc x hx => ?_)
      · rcases List.mem_or_eq_of_mem_set ht with ht | rfl
        · exact hc t ht x hx
        · exact hc _ hm x (by simp only at hx; simp [hx])
      · exact hc _ hm x (by simp at hx; simp [hx])
    · exact same
  | park i =>
    simp only [Conn.step]
    split
    · refine hi.frame rfl rfl rfl rfl (fun hc t ht r hr => ?_) (by simp)
      exact hc t (List.mem_of_mem_eraseIdx ht) r hr
    · refine hi.frame rfl rfl rfl rfl (fun hc t ht r hr => ?_) (by simp)
      rcases mem_modify ht with ht | ⟨y, hy, rfl⟩
      · exact hc t ht r hr
      · exact hc y hy r hr
  | socket ok =>
    simp only [Conn.step]
    cases hs : c.status <;> simp only <;> try exact same
    cases ok
    · simp [CInv]
    · simp only [CInv, hs] at hi
      simpa [CInv] using hi
  | cleanup order =>
    simp only [Conn.step]
    cases hs : c.status with
    | ended =>
      simp only [CInv, hs] at hi
      simp only [CInv, List.append_nil]
      refine ⟨hi, fun t ht r hr => ?_⟩
      simp only [Conn.abortAll, List.mem_filter] at ht
      exact hq hs rfl t ht.1 ht.2 r hr
    | aborted =>
      simp only [CInv, hs] at hi
      simp only [CInv]
      exact ⟨⟨h, [], rfl, hi.1⟩, hi.2, fun n hn hn' => absurd hn hn'⟩
    | leaving todo =>
      simp only [CInv, hs] at hi
      cases todo with
      | nil =>
        simp only [CInv, List.append_nil]
        exact ⟨hi.1, hi.2.1, fun n hn => hi.2.2 n hn (by simp)⟩
      | cons m rest =>
        simp only [CInv]
        refine ⟨hi.1.append, hi.2.1, fun n hn hn' => ?_⟩
        by_cases hnm : n = m
        · subst hnm
          exact ⟨h, order, [], rfl, by simp⟩
        · refine (hi.2.2 n hn (by simp [hnm, hn'])).append (fun r hr => ?_)
          simp only [List.mem_singleton] at hr
          subst hr; rfl
    | _ => exact same
  | other r =>
    simp only [Conn.step]
    refine hi.frame rfl rfl rfl rfl id (fun _ x hx => ?_)
    simp only [List.mem_singleton] at hx
    subst hx
    exact ho _ rfl

theorem CInv.run {c : Conn} {h : List Req} (hi : CInv c h) (es : List SEv) (hq : NoJoinRunning c es)
    (ho : NameIsOwn c.conn es) : CInv (c.run es).1 (h ++ (c.run es).2) := by
  induction es generalizing c h with
  | nil => simpa [Conn.run] using hi
  | cons e es ih =>
    simp only [Conn.run]
    rw [← List.append_assoc]
    refine ih (hi.step e hq.1 (fun r hr => ho r (by simp [hr]))) hq.2 (fun r hr => ?_)
    rw [(step_same c e).2.1]
    exact ho r (by simp [hr])

theorem run_same (c : Conn) (es : List SEv) :
    (c.run es).1.cid = c.cid ∧ (c.run es).1.conn = c.conn ∧ (c.run es).1.topics = c.topics := by
  induction es generalizing c with
  | nil => exact ⟨rfl, rfl, rfl⟩
  | cons e es ih =>
    obtain ⟨a, b, d⟩ := step_same c e
    obtain ⟨a', b', d'⟩ := ih (c.step e).1
    exact ⟨a'.trans a, b'.trans b, d'.trans d⟩

/-! ### The stream broker -/

open Verif.Stream in
/-- The observer sees no member over `conn` as long as nobody joins over it. -/
theorem view_members {max wait : Nat} {name conn : Str} {v : View} (hv : ∀ c, (c, conn) ∉ v.members) (e : Ev) (o : Out)
    (he : ∀ g c, e ≠ .join g conn c) (c : Str) : (c, conn) ∉ (View.step max wait name v (e, o)).members := by
  have hans : ∀ now o, (View.answer max wait name v now o).members = v.members := by
    intro now o
    unfold View.answer
    split
    · split <;> rfl
    · rfl
  cases e with
  | join g k x =>
    simp only [View.step]
    split
    · intro h
      simp only [List.mem_cons, Prod.mk.injEq] at h
      rcases h with ⟨_, h⟩ | h
      · subst h; exact he g x rfl
      · exact hv c h
    · exact hv c
  | leave g x gen order =>
    unfold View.step
    split <;> try exact hv c
    all_goals simp_all
    split
    · intro h; simp at h; exact absurd h.1 (hv c)
    · exact hv c
  | disconnect k order =>
    simp only [View.step]
    intro h
    exact hv c (List.mem_filter.1 h).1
  | attempt i now => simp only [View.step]; rw [hans]; exact hv c
  | finish i now => simp only [View.step]; rw [hans]; exact hv c
  | ack g x gen s =>
    unfold View.step
    split <;> try exact hv c
    all_goals simp_all
    split
    · simpa [View.obs] using hv c
    · exact hv c
  | seek g b =>
    simp only [View.step]
    split
    · simp
    · exact hv c
  | tick now order => exact hv c
  | retainDone =>
    unfold View.step
    split <;> try exact hv c
    all_goals simp_all
  | _ => exact hv c

open Verif.Stream in
theorem after_members {max wait : Nat} {name conn : Str} (h : List (Ev × Out)) (v : View)
    (hv : ∀ c, (c, conn) ∉ v.members) (he : ∀ e o g c, (e, o) ∈ h → e ≠ .join g conn c) (c : Str) :
    (c, conn) ∉ (View.after max wait name v h).members := by
  induction h generalizing v with
  | nil => exact hv c
  | cons x h ih =>
    refine ih _ (fun c => ?_) (fun e o g c hm => he e o g c (by simp [hm]))
    exact view_members hv x.1 x.2 (fun g c => he x.1 x.2 g c (by simp)) c

open Verif.Stream in
theorem trace_events {crc : Bytes → Nat} {e : Ev} {o : Out} {es : List Ev} {t : Topic} (h : (e, o) ∈ t.trace crc es) :
    e ∈ es := by
  induction es generalizing t with
  | nil => cases h
  | cons x es ih =>
    simp only [Topic.trace, List.mem_cons, Prod.mk.injEq] at h
    rcases h with ⟨rfl, _⟩ | h
    · simp
    · simp [ih h]

open Verif.Stream in
/-- Nothing of a connection that has left a topic is left there. -/
theorem left_topic {crc : Bytes → Nat} {t : Topic} (hst : Started crc t) {name conn : Str} {a b : List Ev}
    {order : Str → List Nat} (hnd : (joinIds name (a ++ .disconnect conn order :: b)).Nodup)
    (hb : ∀ e ∈ b, ∀ g c, e ≠ .join g conn c) {g : Group}
    (hg : mget (t.run crc (a ++ .disconnect conn order :: b)).groups name = some g) :
    (∀ c, mget g.members c ≠ some conn)
    ∧ ∀ s p, mget g.pending s = some p → ∃ k, mget g.members p.consumer = some k ∧ k ≠ conn := by
  obtain ⟨J, hr, _⟩ := hst.reach name _ hnd
  have hgr := hr.grp g hg
  have hm : ∀ c, (c, conn) ∉ (viewAfter crc t name (a ++ .disconnect conn order :: b)).members := by
    rw [viewAfter_append, Topic.trace]
    intro c
    refine after_members (max := t.cfg.maxDeliveries) (wait := t.cfg.ackWait) (name := name)
      (h := Topic.trace crc _ b) _ (fun c => ?_) (fun e o g c hm => hb e (trace_events hm) g c) c
    simp only [View.step]
    intro h
    have := (List.mem_filter.1 h).2
    simp at this
  have hm' : ∀ c, mget g.members c ≠ some conn := fun c h => hm c ((hgr.mem c conn).1 h)
  refine ⟨hm', fun s p hp => ?_⟩
  have := hgr.inv.mem s p hp
  obtain ⟨k, hk⟩ := Option.isSome_iff_exists.1 this
  exact ⟨k, hk, fun h => hm' _ (h ▸ hk)⟩

end Verif.Session
