import Verif.Spec.SdkSubs
import Verif.Proofs.PubSubTree

/-! # The client's subscriptions and the server's -/

namespace Verif.PubSub.Sdk

theorem mem_topics_subscribe {c : Client} {t u : Str} : u ∈ (c.subscribe t).topics ↔ u = t ∨ u ∈ c.topics := by
  unfold Client.subscribe Client.topics
  split
  · next h =>
    constructor
    · exact .inr
    · rintro (rfl | h')
      · simpa using h
      · exact h'
  · split
    · simp only [List.mem_append, List.mem_singleton]
      constructor
      · rintro (h | h | h)
        · exact .inr (.inl h)
        · exact .inr (.inr h)
        · exact .inl h
      · rintro (h | h | h)
        · exact .inr (.inr h)
        · exact .inl h
        · exact .inr (.inl h)
    · simp only [List.mem_append, List.mem_singleton]
      constructor
      · rintro ((h | h) | h)
        · exact .inr (.inl h)
        · exact .inl h
        · exact .inr (.inr h)
      · rintro (h | h | h)
        · exact .inl (.inr h)
        · exact .inl (.inl h)
        · exact .inr h

theorem mem_topics_unsubscribe {c : Client} {t u : Str} : u ∈ (c.unsubscribe t).topics ↔ u ∈ c.topics ∧ u ≠ t := by
  unfold Client.unsubscribe Client.topics
  simp only [List.mem_append, mem_setRemove]
  constructor
  · rintro (⟨h, h'⟩ | ⟨h, h'⟩)
    · exact ⟨.inl h, h'⟩
    · exact ⟨.inr h, h'⟩
  · rintro ⟨h | h, h'⟩
    · exact .inl ⟨h, h'⟩
    · exact .inr ⟨h, h'⟩

theorem mem_serveSub {subs : List Str} {r : Req} {u : Str} :
    u ∈ serveSub subs r ↔ if r.kind = .unsub then u ∈ subs ∧ u ≠ r.topic else u = r.topic ∨ u ∈ subs := by
  unfold serveSub
  cases hk : r.kind with
  | sub => simp only [reduceCtorEq, if_false]; exact mem_setInsert
  | resub => simp only [reduceCtorEq, if_false]; exact mem_setInsert
  | unsub => simp only [if_true]; exact mem_setRemove

theorem perm_eraseIdx {α : Type} {l : List α} {i : Nat} {a : α} (h : l[i]? = some a) : l.Perm (a :: l.eraseIdx i) := by
  induction l generalizing i with
  | nil => simp at h
  | cons b l ih =>
    cases i with
    | zero => simp at h; subst h; exact .refl _
    | succ i =>
      simp only [List.getElem?_cons_succ] at h
      exact (List.Perm.cons b (ih h)).trans (List.Perm.swap a b _)

theorem resend_topics (n : Nat) (ts : List Str) : (resend n ts).map (·.topic) = ts := by
  induction ts generalizing n with
  | nil => rfl
  | cons t ts ih => show t :: (resend (n + 1) ts).map (·.topic) = t :: ts; rw [ih]

theorem resend_kind {n : Nat} {ts : List Str} {r : Req} (h : r ∈ resend n ts) : r.kind = .resub := by
  induction ts generalizing n with
  | nil => cases h
  | cons t ts ih =>
    rcases List.mem_cons.mp h with rfl | h
    · rfl
    · exact ih h

theorem nodup_setRemove {a : Str} {s : List Str} (h : s.Nodup) : (setRemove a s).Nodup := h.filter _

/-- One callback per topic. -/
structure Client.Ok (c : Client) : Prop where
  exact : c.exact.Nodup
  wild : c.wild.Nodup
  apart : ∀ t ∈ c.exact, t ∉ c.wild

theorem Client.Ok.topics {c : Client} (h : c.Ok) : c.topics.Nodup := by
  refine List.nodup_append.mpr ⟨h.exact, h.wild, ?_⟩
  intro a ha b hb hab
  exact h.apart a ha (hab ▸ hb)

theorem Client.Ok.unsubscribe {c : Client} (h : c.Ok) (t : Str) : (c.unsubscribe t).Ok :=
  ⟨nodup_setRemove h.exact, nodup_setRemove h.wild, fun u hu hw => h.apart u (mem_setRemove.mp hu).1 (mem_setRemove.mp hw).1⟩

theorem nodup_snoc {a : Str} {s : List Str} (h : s.Nodup) (ha : a ∉ s) : (s ++ [a]).Nodup :=
  List.nodup_append.mpr ⟨h, by simp, by intro x hx y hy hxy; simp at hy; subst hy; exact ha (hxy ▸ hx)⟩

theorem Client.Ok.subscribe {c : Client} (h : c.Ok) (t : Str) : (c.subscribe t).Ok := by
  unfold Client.subscribe
  split
  · exact h
  · next hn =>
    rw [not_or] at hn
    split
    · refine ⟨h.exact, nodup_snoc h.wild hn.2, ?_⟩
      intro u hu hw
      rcases List.mem_append.mp hw with hw | hw
      · exact h.apart u hu hw
      · simp at hw; subst hw; exact hn.1 hu
    · refine ⟨nodup_snoc h.exact hn.1, h.wild, ?_⟩
      intro u hu hw
      rcases List.mem_append.mp hu with hu | hu
      · exact h.apart u hu hw
      · simp at hu; subst hu; exact hn.2 hw

theorem Client.Ok.failed {c : Client} (h : c.Ok) (r : Req) : (failed c r).Ok := by
  unfold Sdk.failed
  split
  · exact h.unsubscribe _
  · exact h

theorem Client.Ok.foldl {c : Client} (h : c.Ok) (rs : List Req) : (rs.foldl Sdk.failed c).Ok := by
  induction rs generalizing c with
  | nil => exact h
  | cons r rs ih => exact ih (h.failed r)

structure Agree (l : Link) : Prop where
  client : l.client.Ok
  down : l.up = false → l.toServer = [] ∧ l.toClient = [] ∧ l.subs = []
  late : l.late = []
  /-- at most one request per topic is not answered -/
  once : l.busy.Nodup
  asked : ∀ r ∈ l.toServer, r.topic ∈ l.client.topics
  done : ∀ r ∈ l.toClient, r.topic ∈ l.client.topics ∧ (r.topic ∈ l.subs ↔ r.kind ≠ .unsub)
  idle : l.up = true → ∀ t, t ∉ l.busy → (t ∈ l.client.topics ↔ t ∈ l.subs)

theorem Agree.init : Agree {} := by
  constructor <;> simp [Link.busy, Client.topics]
  exact ⟨List.nodup_nil, List.nodup_nil, by simp⟩

theorem Agree.step {l : Link} (h : Agree l) {e : LEv} (hc : Calm l [e]) : Agree (l.step e) := by
  have hall := h
  obtain ⟨h0, h1, h2, h3, h4, h5, h6⟩ := h
  have hcal := hc.1
  cases e with
  | subscribe t =>
    simp only [Link.step]
    split
    · exact hall
    · next hnt =>
      split
      · next hup =>
        have hb : t ∉ l.busy := by
          intro hb
          obtain ⟨r, hr, rfl⟩ := List.mem_map.mp hb
          rcases List.mem_append.mp hr with hr | hr
          · exact hnt (h4 r hr)
          · exact hnt (h5 r hr).1
        have hperm : ({ l with client := l.client.subscribe t, nextId := l.nextId + 1
                               toServer := l.toServer ++ [{ id := l.nextId, kind := .sub, topic := t }] } : Link).busy.Perm (t :: l.busy) := by
          simp only [Link.busy, List.map_append, List.map_cons, List.append_assoc, List.singleton_append]
          exact List.perm_middle
        constructor
        · exact h0.subscribe t
        · intro hd; simp only at hd; rw [hup] at hd; cases hd
        · exact h2
        · exact hperm.nodup_iff.mpr (List.nodup_cons.mpr ⟨hb, h3⟩)
        · intro r hr
          refine mem_topics_subscribe.mpr ?_
          rcases List.mem_append.mp hr with hr | hr
          · exact .inr (h4 r hr)
          · simp at hr; subst hr; exact .inl rfl
        · intro r hr
          exact ⟨mem_topics_subscribe.mpr (.inr (h5 r hr).1), (h5 r hr).2⟩
        · intro _ u hu
          rw [hperm.mem_iff, List.mem_cons, not_or] at hu
          simp only [mem_topics_subscribe]
          rw [← h6 hup u hu.2]
          exact ⟨fun h => h.resolve_left hu.1, .inr⟩
      · exact hall
  | unsubscribe t =>
    simp only [Link.step]
    split
    · next hcond =>
      have hb : t ∉ l.busy := of_decide_eq_true hcal
      have hperm : ({ l with nextId := l.nextId + 1, toServer := l.toServer ++ [{ id := l.nextId, kind := .unsub, topic := t }] } : Link).busy.Perm
          (t :: l.busy) := by
        simp only [Link.busy, List.map_append, List.map_cons, List.append_assoc, List.singleton_append]
        exact List.perm_middle
      constructor
      · exact h0
      · intro hd; simp only at hd; rw [hcond.2] at hd; cases hd
      · exact h2
      · exact hperm.nodup_iff.mpr (List.nodup_cons.mpr ⟨hb, h3⟩)
      · intro r hr
        rcases List.mem_append.mp hr with hr | hr
        · exact h4 r hr
        · simp at hr; subst hr; exact hcond.1
      · exact h5
      · intro _ u hu
        rw [hperm.mem_iff, List.mem_cons, not_or] at hu
        exact h6 hcond.2 u hu.2
    · exact hall
  | serve i =>
    simp only [Link.step]
    split
    · exact hall
    · next r hr =>
      have hmem : r ∈ l.toServer := List.mem_of_getElem? hr
      have hup : l.up = true := by
        cases hu : l.up with
        | true => rfl
        | false => rw [(h1 hu).1] at hmem; cases hmem
      have hp : l.toServer.Perm (r :: l.toServer.eraseIdx i) := perm_eraseIdx hr
      have hperm : ({ l with toServer := l.toServer.eraseIdx i, toClient := l.toClient ++ [r], subs := serveSub l.subs r } : Link).busy.Perm l.busy := by
        refine List.Perm.map _ ?_
        refine .trans ?_ (List.Perm.append_right _ hp.symm)
        rw [← List.append_assoc]
        exact (List.perm_append_singleton _ _)
      have hrest : ((l.toServer.eraseIdx i ++ l.toClient).map (·.topic)).Nodup ∧ r.topic ∉ (l.toServer.eraseIdx i ++ l.toClient).map (·.topic) := by
        have : l.busy.Perm ((r :: (l.toServer.eraseIdx i ++ l.toClient)).map (·.topic)) := List.Perm.map _ (List.Perm.append_right _ hp)
        have := List.nodup_cons.mp (this.nodup_iff.mp h3)
        exact ⟨this.2, this.1⟩
      constructor
      · exact h0
      · intro hd; simp only at hd; rw [hup] at hd; cases hd
      · exact h2
      · exact hperm.nodup_iff.mpr h3
      · intro q hq; exact h4 q (hp.mem_iff.mpr (List.mem_cons_of_mem _ hq))
      · intro q hq
        simp only [mem_serveSub]
        rcases List.mem_append.mp hq with hq | hq
        · have hne : q.topic ≠ r.topic := by
            intro hc
            exact hrest.2 (hc ▸ List.mem_map_of_mem (List.mem_append_right _ hq))
          refine ⟨(h5 q hq).1, ?_⟩
          rw [← (h5 q hq).2]
          split
          · exact ⟨fun h => h.1, fun h => ⟨h, hne⟩⟩
          · exact ⟨fun h => h.resolve_left hne, .inr⟩
        · simp at hq; subst hq
          refine ⟨h4 q hmem, ?_⟩
          split
          · next hk => exact ⟨fun h => absurd rfl h.2, fun h => absurd hk h⟩
          · next hk => exact ⟨fun _ => hk, fun _ => .inl rfl⟩
      · intro _ t ht
        rw [hperm.mem_iff] at ht
        have hne : t ≠ r.topic := by
          rintro rfl
          exact ht (List.mem_map_of_mem (List.mem_append_left _ hmem))
        simp only [mem_serveSub]
        rw [h6 hup t ht]
        split
        · exact ⟨fun h => ⟨h, hne⟩, fun h => h.1⟩
        · exact ⟨.inr, fun h => h.resolve_left hne⟩
  | answer i =>
    simp only [Link.step]
    split
    · exact hall
    · next r hr =>
      have hmem : r ∈ l.toClient := List.mem_of_getElem? hr
      have hup : l.up = true := by
        cases hu : l.up with
        | true => rfl
        | false => rw [(h1 hu).2.1] at hmem; cases hmem
      have hp : l.toClient.Perm (r :: l.toClient.eraseIdx i) := perm_eraseIdx hr
      have hperm : l.busy.Perm (r.topic :: (l.toServer ++ l.toClient.eraseIdx i).map (·.topic)) := by
        refine .trans (List.Perm.map _ (List.Perm.append_left _ hp)) ?_
        exact List.Perm.map (fun r : Req => r.topic) List.perm_middle
      have hnd := List.nodup_cons.mp (hperm.nodup_iff.mp h3)
      have hlate : r.id ∉ l.late := by rw [h2]; simp
      simp only [hlate, if_false]
      split
      · next hk =>
        have hns : r.topic ∉ l.subs := fun h => (h5 r hmem).2.mp h hk
        constructor
        · exact h0.unsubscribe _
        · intro hd; simp only at hd; rw [hup] at hd; cases hd
        · exact h2
        · exact hnd.2
        · intro q hq
          refine mem_topics_unsubscribe.mpr ⟨h4 q hq, ?_⟩
          intro hc
          exact hnd.1 (hc ▸ List.mem_map_of_mem (List.mem_append_left _ hq))
        · intro q hq
          have hq' := h5 q (hp.mem_iff.mpr (List.mem_cons_of_mem _ hq))
          refine ⟨mem_topics_unsubscribe.mpr ⟨hq'.1, ?_⟩, hq'.2⟩
          intro hc
          exact hnd.1 (hc ▸ List.mem_map_of_mem (List.mem_append_right _ hq))
        · intro _ t ht
          simp only [mem_topics_unsubscribe]
          by_cases htr : t = r.topic
          · subst htr
            exact ⟨fun h => absurd rfl h.2, fun h => absurd h hns⟩
          · have : t ∉ l.busy := by
              rw [hperm.mem_iff, List.mem_cons, not_or]; exact ⟨htr, ht⟩
            rw [← h6 hup t this]
            exact ⟨fun h => h.1, fun h => ⟨h, htr⟩⟩
      · next hk =>
        constructor
        · exact h0
        · intro hd; simp only at hd; rw [hup] at hd; cases hd
        · exact h2
        · exact hnd.2
        · exact h4
        · intro q hq
          exact h5 q (hp.mem_iff.mpr (List.mem_cons_of_mem _ hq))
        · intro _ t ht
          by_cases htr : t = r.topic
          · subst htr
            exact ⟨fun _ => (h5 r hmem).2.mpr hk, fun _ => (h5 r hmem).1⟩
          · have : t ∉ l.busy := by
              rw [hperm.mem_iff, List.mem_cons, not_or]; exact ⟨htr, ht⟩
            exact h6 hup t this
  | timeout id => cases hcal
  | lost =>
    simp only [Link.step]
    constructor
    · exact h0.foldl _
    · intro _; exact ⟨rfl, rfl, rfl⟩
    · exact h2
    · simp [Link.busy]
    · intro r hr; cases hr
    · intro r hr; cases hr
    · intro hu; cases hu
  | reconnect =>
    simp only [Link.step]
    split
    · exact hall
    · next hu =>
      have hd := h1 (by simpa using hu)
      have hb : ({ l with up := true, toServer := resend l.nextId l.client.topics, nextId := l.nextId + l.client.topics.length } : Link).busy
          = l.client.topics := by
        simp only [Link.busy, hd.2.1, List.append_nil, resend_topics]
      constructor
      · exact h0
      · intro hc; cases hc
      · exact h2
      · rw [hb]; exact h0.topics
      · intro r hr
        have : r.topic ∈ (resend l.nextId l.client.topics).map (·.topic) := List.mem_map_of_mem hr
        rwa [resend_topics] at this
      · intro r hr
        simp only [hd.2.1] at hr; cases hr
      · intro _ t ht
        rw [hb] at ht
        simp only [hd.2.2]
        exact ⟨fun h => absurd h ht, fun h => by cases h⟩

theorem Agree.run {l : Link} (h : Agree l) {es : List LEv} (hc : Calm l es) : Agree (Link.run l es) := by
  induction es generalizing l with
  | nil => exact h
  | cons e es ih => exact ih (h.step ⟨hc.1, trivial⟩) hc.2

theorem failed_keeps {c : Client} {r : Req} {t : Str} (h : t ∈ c.topics) (hr : r.topic = t → r.kind = .resub) : t ∈ (failed c r).topics := by
  unfold failed
  split
  · next hk =>
    refine mem_topics_unsubscribe.mpr ⟨h, ?_⟩
    rintro rfl
    rw [hr rfl] at hk; cases hk
  · exact h

theorem foldl_failed_keeps {c : Client} {rs : List Req} {t : Str} (h : t ∈ c.topics) (hr : ∀ r ∈ rs, r.topic = t → r.kind = .resub) :
    t ∈ (rs.foldl failed c).topics := by
  induction rs generalizing c with
  | nil => exact h
  | cons r rs ih => exact ih (failed_keeps h (hr r (by simp))) (fun q hq => hr q (by simp [hq]))

theorem settled_kind {l : Link} {t : Str} (hs : l.settled t) {r : Req} (hr : r ∈ l.toServer ++ l.toClient) (hl : r.id ∉ l.late) :
    r.topic = t → r.kind = .resub := by
  intro h
  cases hk : r.kind with
  | resub => rfl
  | sub => exact absurd (hs r hr h (by rw [hk]; simp)) hl
  | unsub => exact absurd (hs r hr h (by rw [hk]; simp)) hl

/-- A settled subscription stays until `unsubscribe` is called. -/
theorem kept_step {l : Link} {t : Str} (ht : t ∈ l.client.topics) (hs : l.settled t) {e : LEv} (he : e ≠ .unsubscribe t) :
    t ∈ (l.step e).client.topics ∧ (l.step e).settled t := by
  cases e with
  | subscribe u =>
    simp only [Link.step]
    split
    · exact ⟨ht, hs⟩
    · next hu =>
      split
      · refine ⟨mem_topics_subscribe.mpr (.inr ht), ?_⟩
        intro r hr h1 h2
        have hr : r ∈ (l.toServer ++ [{ id := l.nextId, kind := .sub, topic := u }]) ++ l.toClient := hr
        rcases List.mem_append.mp hr with hr | hr
        · rcases List.mem_append.mp hr with hr | hr
          · exact hs r (List.mem_append_left _ hr) h1 h2
          · simp at hr; subst hr; exact absurd (show u ∈ _ from (show u = t from h1) ▸ ht) hu
        · exact hs r (List.mem_append_right _ hr) h1 h2
      · exact ⟨ht, hs⟩
  | unsubscribe u =>
    have hu : u ≠ t := fun h => he (by rw [h])
    simp only [Link.step]
    split
    · refine ⟨ht, ?_⟩
      intro r hr h1 h2
      have hr : r ∈ (l.toServer ++ [{ id := l.nextId, kind := .unsub, topic := u }]) ++ l.toClient := hr
      rcases List.mem_append.mp hr with hr | hr
      · rcases List.mem_append.mp hr with hr | hr
        · exact hs r (List.mem_append_left _ hr) h1 h2
        · simp at hr; subst hr; exact absurd h1 hu
      · exact hs r (List.mem_append_right _ hr) h1 h2
    · exact ⟨ht, hs⟩
  | serve i =>
    simp only [Link.step]
    split
    · exact ⟨ht, hs⟩
    · next q hq =>
      have hp := perm_eraseIdx hq
      refine ⟨ht, ?_⟩
      intro r hr h1 h2
      refine hs r ?_ h1 h2
      have hr : r ∈ l.toServer.eraseIdx i ++ (l.toClient ++ [q]) := hr
      simp only [List.mem_append, List.mem_singleton] at hr ⊢
      rcases hr with hr | hr | rfl
      · exact .inl (hp.mem_iff.mpr (List.mem_cons_of_mem _ hr))
      · exact .inr hr
      · exact .inl (List.mem_of_getElem? hq)
  | answer i =>
    simp only [Link.step]
    split
    · exact ⟨ht, hs⟩
    · next q hq =>
      have hp := perm_eraseIdx hq
      have hset : ∀ r ∈ l.toServer ++ l.toClient.eraseIdx i, r.topic = t → r.kind ≠ .resub → r.id ∈ l.late := by
        intro r hr h1 h2
        refine hs r ?_ h1 h2
        simp only [List.mem_append] at hr ⊢
        exact hr.imp id (fun hr => hp.mem_iff.mpr (List.mem_cons_of_mem _ hr))
      split
      · exact ⟨ht, hset⟩
      · next hl =>
        split
        · next hk =>
          refine ⟨mem_topics_unsubscribe.mpr ⟨ht, ?_⟩, hset⟩
          intro hc
          have := settled_kind hs (List.mem_append_right _ (List.mem_of_getElem? hq)) hl hc.symm
          rw [this] at hk; cases hk
        · exact ⟨ht, hset⟩
  | timeout id =>
    simp only [Link.step]
    split
    · next q hq =>
      have hmem := List.mem_of_find?_eq_some hq
      have hl : q.id ∉ l.late := by
        have := List.find?_some hq
        simp at this; exact this.2
      refine ⟨failed_keeps ht (settled_kind hs hmem hl), ?_⟩
      intro r hr h1 h2
      exact List.mem_cons_of_mem _ (hs r hr h1 h2)
    · exact ⟨ht, hs⟩
  | lost =>
    simp only [Link.step]
    refine ⟨foldl_failed_keeps ht ?_, fun r hr => by cases hr⟩
    intro r hr
    obtain ⟨hr, hl⟩ := List.mem_filter.mp hr
    exact settled_kind hs hr (by simpa using hl)
  | reconnect =>
    simp only [Link.step]
    split
    · exact ⟨ht, hs⟩
    · refine ⟨ht, ?_⟩
      intro r hr h1 h2
      have hr : r ∈ resend l.nextId l.client.topics ++ l.toClient := hr
      rcases List.mem_append.mp hr with hr | hr
      · exact absurd (resend_kind hr) h2
      · exact hs r (List.mem_append_right _ hr) h1 h2

theorem kept_run {l : Link} {t : Str} (ht : t ∈ l.client.topics) (hs : l.settled t) {es : List LEv} (he : LEv.unsubscribe t ∉ es) :
    t ∈ (Link.run l es).client.topics := by
  induction es generalizing l with
  | nil => exact ht
  | cons e es ih =>
    obtain ⟨h1, h2⟩ := kept_step ht hs (e := e) (fun h => he (by rw [h]; simp))
    exact ih h1 h2 (fun h => he (List.mem_cons_of_mem _ h))

theorem Link.run_append (l : Link) (a b : List LEv) : Link.run l (a ++ b) = Link.run (Link.run l a) b := by
  induction a generalizing l with
  | nil => rfl
  | cons e a ih => exact ih _

end Verif.PubSub.Sdk
