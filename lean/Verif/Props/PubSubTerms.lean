import Verif.Proofs.PubSubTerms

/-!
# C120: retained values behind the network, across crashes

The English statement is in `/verif/properties.jsonl`.
-/

namespace Verif.Rpc

open Verif Verif.Wire Verif.Sdk

variable {E I : Type}

section
variable (pr : Printer) (desk : Desk I) (bg : I → Option PubSub.Op) (part : E → Hub)

/-- **C120** (partial: each life is as in `Term.Ok`).  The server lives and crashes any number of times, from any database on.  What a subscription is
greeted with in the present life, and arrives at the client over connection `l`: the values retained now or, if nobody has retained since,
those in the database; see `Welcomed`. -/
theorem C120_greeting_partial {db : List PubSub.Row} (hn : (db.map (·.1)).Nodup) (hrows : ∀ r ∈ db, r.1.head? ≠ some PubSub.slash)
    (past : List (Term E I)) (now : Term E I) (h : Terms pr desk bg part db (past ++ [now])) (l : Nat) :
    ∃ said, Script bg l (now.did pr desk bg part) said ∧ Welcomed pr desk bg part db past now l said ∧
      arrivedOver l (hubPushes pr now.srv desk bg part now.e0 now.es) <+: said.flatten ∧
      (∀ p, ((hubWorld pr now.srv desk bg part now.e0 now.es).peers p).link = some l →
        ((hubWorld pr now.srv desk bg part now.e0 now.es).links l).ended = false →
        Delivered (hubWorld pr now.srv desk bg part now.e0 now.es) l →
        arrivedOver l (hubPushes pr now.srv desk bg part now.e0 now.es) = said.flatten) := by
  have hrows' : ∀ r ∈ db, PubSub.plainTopic r.1 = true := by
    intro r hr; simp [PubSub.plainTopic, hrows r hr]
  obtain ⟨db', g1, g2, g3, g4⟩ := terms_last past hn hrows' h
  have hr := hub_hosted g3.served g3.starts now.es g3.ordinary
  refine ⟨_, script g3.served g3.starts hr g3.proper l, ?_, ?_, ?_⟩
  · intro u p t r v hs msgs hm
    obtain ⟨k1, k2⟩ := greeted_kept g3.served g1 g2 g3.starts hr g3.proper g3.clock g3.plain l hs hm
    refine ⟨k1, fun hne => ⟨(k2 hne).1, ?_⟩⟩
    have hops : ∃ rest, hubOps now.env bg 0 (now.did pr desk bg part) = hubOps now.env bg 0 u ++ rest := by
      rw [hs, hubOps_append]; exact ⟨_, rfl⟩
    obtain ⟨rest, hops⟩ := hops
    have hv := term_valid g3
    have hpl := plain_ops (env := now.env) g3.served.tasks g2 g3.plain
    have hf := flushes_ops (env := now.env) g3.flushes
    rw [hops] at hv hpl hf
    have ha : Answered now.env u := by have := term_answered g3; rw [hs] at this; exact this.left
    have hslot := fun topic => (slots g3.served.tasks g1 (u0 := now.u0) topic (g4 topic _ _ (disk_first db topic)) u ha (valid_left hv) (plain_left hpl)
      (flushes_left hf)).2.2.2
    constructor
    · intro m hm'
      obtain ⟨j1, k, j2, j3, j4⟩ := ((k2 hne).2 m).mp hm'
      exact ⟨j1, k, (hslot m.topic).loose k j2, j3, j4⟩
    · intro topic k j1 j2 j3
      exact ((k2 hne).2 ⟨topic, k.data⟩).mpr ⟨j1, k, (hslot topic).strict k j2, j3, rfl⟩
  · rw [← hub_said g3.served g3.starts hr.facts l]; exact arrived_prefix hr g3.ordinary l
  · intro p hl he hd
    rw [← hub_said g3.served g3.starts hr.facts l]; exact arrived_all hr g3.ordinary hl he hd

/-! ## What that means for a value that was written down -/

/-- In this life nobody retains anything for the topic. -/
def Silence (topic : Str) (r : Term E I) : Prop := ∀ a ∈ r.did pr desk bg part, retains topic a = false

/-- No flush of these acts finds the value expired. -/
def Lasts (k : PubSub.Kept) (A : List (Act I)) : Prop := ∀ x now, Act.ticked x ∈ A → bg x = some (.flush now true) → k.live now = true

/-- A flush that succeeds is among the acts. -/
def WrittenDown (A : List (Act I)) : Prop := ∃ x ∈ A, ∃ y now, x = Act.ticked y ∧ bg y = some (.flush now true)

end

section
variable {pr : Printer} {desk : Desk I} {bg : I → Option PubSub.Op} {part : E → Hub} {dflt : Nat} {unix : Nat → Nat}

theorem acts_append_slot (b : Bool) (topic : Str) (s : Slot) (x y : List (Act I)) :
    s.acts b dflt unix bg topic (x ++ y) = (s.acts b dflt unix bg topic x).acts b dflt unix bg topic y := List.foldl_append ..

theorem slot_count (b : Bool) (topic : Str) (A : List (Act I)) (s : Slot) :
    (s.acts b dflt unix bg topic A).count = s.count + A.countP (onHub bg) := by
  induction A generalizing s with
  | nil => rfl
  | cons a A ih =>
    show ((s.act b dflt unix bg topic a).acts b dflt unix bg topic A).count = _
    rw [ih, slot_act_count (env := ⟨dflt, fun _ => [], unix⟩), List.countP_cons]
    omega

/-- Nobody retains anything: the value in memory stays, and the database has it after the first flush at the latest. -/
theorem slot_quiet (b : Bool) (topic : Str) (k : PubSub.Kept) (A : List (Act I)) (hA : ∀ a ∈ A, retains topic a = false) (hl : b = true ∨ Lasts bg k A)
    (s : Slot) (hm : s.mem = some k) :
    (s.acts b dflt unix bg topic A).mem = some k ∧ (WrittenDown bg A → (s.acts b dflt unix bg topic A).disk = some k) ∧
      (¬ WrittenDown bg A → (s.acts b dflt unix bg topic A).disk = s.disk) := by
  induction A generalizing s with
  | nil => exact ⟨hm, (fun ⟨_, hx, _⟩ => by cases hx), fun _ => rfl⟩
  | cons a A ih =>
    have ihA := fun s hm => ih (fun c hc => hA c (List.mem_cons_of_mem _ hc))
      (hl.imp id (fun h x n hx => h x n (List.mem_cons_of_mem _ hx))) s hm
    show ((s.act b dflt unix bg topic a).acts b dflt unix bg topic A).mem = _ ∧ (_ → ((s.act b dflt unix bg topic a).acts b dflt unix bg topic A).disk = _) ∧
      (_ → ((s.act b dflt unix bg topic a).acts b dflt unix bg topic A).disk = _)
    by_cases hf : ∃ y now, a = .ticked y ∧ bg y = some (.flush now true)
    · obtain ⟨y, now, rfl, hy⟩ := hf
      have e1 : (s.act b dflt unix bg topic (.ticked y)).mem = some k := by simp [Slot.act, hy, hm]
      have e2 : (s.act b dflt unix bg topic (.ticked y)).disk = some k := by
        rcases hl with rfl | hl
        · simp [Slot.act, hy, hm]
        · cases b with
          | true => simp [Slot.act, hy, hm]
          | false => simp [Slot.act, hy, hm, hl y now (List.mem_cons_self ..) hy]
      obtain ⟨i1, i2, i3⟩ := ihA _ e1
      refine ⟨i1, fun _ => ?_, fun hn => absurd ⟨_, List.mem_cons_self .., y, now, rfl, hy⟩ hn⟩
      by_cases hw : WrittenDown bg A
      · exact i2 hw
      · rw [i3 hw, e2]
    · obtain ⟨s1, s2⟩ := slot_act_same (env := ⟨dflt, fun _ => [], unix⟩) (bg := bg) b topic s a (hA a (List.mem_cons_self ..))
        (fun x n he hx => hf ⟨x, n, he, hx⟩)
      obtain ⟨i1, i2, i3⟩ := ihA _ (s1.trans hm)
      refine ⟨i1, fun ⟨x, hx, y, n, h1, h2⟩ => ?_, fun hn => (i3 (fun ⟨x, hx, h⟩ => hn ⟨x, List.mem_cons_of_mem _ hx, h⟩)).trans s2⟩
      rcases List.mem_cons.mp hx with rfl | hx
      · exact absurd ⟨y, n, h1, h2⟩ hf
      · exact i2 ⟨x, hx, y, n, h1, h2⟩

theorem revive_data (t u : Nat) (k : PubSub.Kept) : (revive t u k).data = k.data ∧ (revive t u k).untilUnix = k.untilUnix := ⟨rfl, rfl⟩

theorem revive_same (t u : Nat) {k k' : PubSub.Kept} (h1 : k.data = k'.data) (h2 : k.untilUnix = k'.untilUnix) : revive t u k = revive t u k' := by
  cases k; cases k'; simp_all [revive]

/-- A value in the database goes from life to life, as long as nobody retains anything for the topic. -/
theorem slot_terms (b : Bool) (topic : Str) (k : PubSub.Kept) (rs : List (Term E I)) (hs : ∀ r ∈ rs, Silence pr desk bg part topic r)
    (hl : b = true ∨ ∀ r ∈ rs, Lasts bg (revive r.t0 r.u0 k) (r.did pr desk bg part)) (s : Slot)
    (hd : ∃ k', s.disk = some k' ∧ k'.data = k.data ∧ k'.untilUnix = k.untilUnix) :
    ∃ k', (Slot.terms pr desk bg part b topic s rs).disk = some k' ∧ k'.data = k.data ∧ k'.untilUnix = k.untilUnix := by
  induction rs generalizing s with
  | nil => exact hd
  | cons r rs ih =>
    refine ih (fun q hq => hs q (List.mem_cons_of_mem _ hq)) (hl.imp id (fun h q hq => h q (List.mem_cons_of_mem _ hq))) _ ?_
    obtain ⟨k', h1, h2, h3⟩ := hd
    have hm : (s.start r.t0 r.u0).mem = some (revive r.t0 r.u0 k) := by
      simp only [Slot.start, h1, Option.map_some]; rw [revive_same r.t0 r.u0 h2 h3]
    obtain ⟨_, i2, i3⟩ := slot_quiet (dflt := r.env.dflt) (unix := r.env.unix) b topic _ (r.did pr desk bg part) (hs r (List.mem_cons_self ..))
      (hl.imp id (fun h => h r (List.mem_cons_self ..))) (s.start r.t0 r.u0) hm
    by_cases hw : WrittenDown bg (r.did pr desk bg part)
    · exact ⟨_, i2 hw, revive_data ..⟩
    · exact ⟨k', (i3 hw).trans h1, h2, h3⟩

/-- The same when the topic has nothing. -/
theorem slot_none_acts (b : Bool) (topic : Str) (A : List (Act I)) (hA : ∀ a ∈ A, retains topic a = false) (s : Slot) (hm : s.mem = none) :
    (s.acts b dflt unix bg topic A).mem = none ∧
      ((s.acts b dflt unix bg topic A).disk = none ∨
        ((s.acts b dflt unix bg topic A).disk = s.disk ∧ ¬ ∃ x ∈ A, ∃ y now, x = .ticked y ∧ bg y = some (.flush now true))) := by
  induction A generalizing s with
  | nil => exact ⟨hm, .inr ⟨rfl, by simp⟩⟩
  | cons a A ih =>
    have ihA := fun s hm => ih (fun c hc => hA c (List.mem_cons_of_mem _ hc)) s hm
    show ((s.act b dflt unix bg topic a).acts b dflt unix bg topic A).mem = _ ∧ _
    by_cases hf : ∃ y now, a = .ticked y ∧ bg y = some (.flush now true)
    · obtain ⟨y, now, rfl, hy⟩ := hf
      have e1 : (s.act b dflt unix bg topic (.ticked y)).mem = none := by simp [Slot.act, hy, hm]
      have e2 : (s.act b dflt unix bg topic (.ticked y)).disk = none := by cases b <;> simp [Slot.act, hy, hm]
      obtain ⟨i1, i2⟩ := ihA _ e1
      refine ⟨i1, .inl ?_⟩
      rcases i2 with i2 | ⟨i2, _⟩
      · exact i2
      · exact i2.trans e2
    · obtain ⟨s1, s2⟩ := slot_act_same (env := ⟨dflt, fun _ => [], unix⟩) (bg := bg) b topic s a (hA a (List.mem_cons_self ..))
        (fun x n he hx => hf ⟨x, n, he, hx⟩)
      obtain ⟨i1, i2⟩ := ihA _ (s1.trans hm)
      refine ⟨i1, i2.imp id (fun ⟨j1, j2⟩ => ⟨j1.trans s2, ?_⟩)⟩
      rintro ⟨x, hx, y, n, h1, h2⟩
      rcases List.mem_cons.mp hx with rfl | hx
      · exact hf ⟨y, n, h1, h2⟩
      · exact j2 ⟨x, hx, y, n, h1, h2⟩

theorem slot_none_terms (b : Bool) (topic : Str) (rs : List (Term E I)) (hs : ∀ r ∈ rs, Silence pr desk bg part topic r) (s : Slot) (hd : s.disk = none) :
    (Slot.terms pr desk bg part b topic s rs).disk = none := by
  induction rs generalizing s with
  | nil => exact hd
  | cons r rs ih =>
    refine ih (fun q hq => hs q (List.mem_cons_of_mem _ hq)) _ ?_
    have hm : (s.start r.t0 r.u0).mem = none := by simp [Slot.start, hd]
    rcases (slot_none_acts (dflt := r.env.dflt) (unix := r.env.unix) b topic (r.did pr desk bg part) (hs r (List.mem_cons_self ..)) _ hm).2 with h | ⟨h, _⟩
    · exact h
    · rw [h]; exact hd

theorem terms_append (b : Bool) (topic : Str) (xs ys : List (Term E I)) (s : Slot) :
    Slot.terms pr desk bg part b topic s (xs ++ ys) = Slot.terms pr desk bg part b topic (Slot.terms pr desk bg part b topic s xs) ys := by
  induction xs generalizing s with
  | nil => rfl
  | cons r xs ih => exact ih _

end

section
variable (pr : Printer) (desk : Desk I) (bg : I → Option PubSub.Op) (part : E → Hub)

/-- **C120** (partial: likewise).  In some life (`r₀`) a value is retained with `publish`, which is answered with ok, and a flush succeeds.  From then on
nobody retains anything for the topic, and no flush finds the value expired.  Then, after however many crashes, whoever subscribes with a
matching pattern is greeted with this value, once, and with no other value of the topic, as long as it lives: until the wall clock second
given by the `publish`, as the start of the present life reckons it, or without end if that had passed by then. -/
theorem C120_survives_partial {db : List PubSub.Row} (hn : (db.map (·.1)).Nodup) (hrows : ∀ r ∈ db, r.1.head? ≠ some PubSub.slash)
    (past mid : List (Term E I)) (r₀ now : Term E I) (h : Terms pr desk bg part db ((past ++ r₀ :: mid) ++ [now]))
    {x y : List (Act I)} {c t : Nat} {topic : Str} {opts : PubOpts} {data : Bytes}
    (h₀ : r₀.did pr desk bg part = x ++ .did c (.publish topic opts data) t (some .ok) :: y) (hret : opts.retain = some true) (hdata : data ≠ [])
    (hy : ∀ a ∈ y, retains topic a = false) (hw : WrittenDown bg y) {k : PubSub.Kept}
    (hk : k = ⟨data, some (t + opts.ttl.getD r₀.env.dflt * PubSub.second), some (r₀.env.unix (x.countP (onHub bg)) + opts.ttl.getD r₀.env.dflt)⟩)
    (hlast : Lasts bg k y) (hmid : ∀ r ∈ mid, Silence pr desk bg part topic r ∧ Lasts bg (revive r.t0 r.u0 k) (r.did pr desk bg part))
    {l : Nat} {u v : List (Act I)} {p : Str} {τ : Nat} {r : Option Response} (hs : now.did pr desk bg part = u ++ .did l (.subscribe p) τ r :: v)
    (hu : ∀ a ∈ u, retains topic a = false ∧ ¬ endsLink bg l a) (hul : Lasts bg (revive now.t0 now.u0 k) u)
    (hm : PubSub.Matches (PubSub.split p) (PubSub.split topic)) :
    ∃ said msgs, Script bg l (now.did pr desk bg part) said ∧ arrivedOver l (hubPushes pr now.srv desk bg part now.e0 now.es) <+: said.flatten ∧
      said[u.length]? = some msgs ∧ (msgs.map (·.topic)).Nodup ∧ ((revive now.t0 now.u0 k).live τ = true → ⟨topic, data⟩ ∈ msgs) ∧
      ∀ d, ⟨topic, d⟩ ∈ msgs → d = data ∧ (revive now.t0 now.u0 k).live τ = true := by
  obtain ⟨said, j1, j2, j3, _⟩ := C120_greeting_partial pr desk bg part hn hrows (past ++ r₀ :: mid) now h l
  have hlen : u.length < said.length := by rw [j1.1, hs]; simp
  refine ⟨said, said[u.length], j1, j3, List.getElem?_eq_getElem hlen, ?_⟩
  obtain ⟨_, g⟩ := j2 u p τ r v hs _ (List.getElem?_eq_getElem hlen)
  obtain ⟨g1, g2, g3⟩ := g (fun a ha => (hu a ha).2)
  have hslot : ∀ b, (slotAt pr desk bg part b topic db (past ++ r₀ :: mid) now u).mem = some (revive now.t0 now.u0 k) := by
    intro b
    unfold slotAt
    rw [terms_append]
    generalize Slot.terms pr desk bg part b topic { disk := (mget db topic).map rowValue } past = s0
    show (((Slot.terms pr desk bg part b topic ((s0.start r₀.t0 r₀.u0).acts b r₀.env.dflt r₀.env.unix bg topic (r₀.did pr desk bg part)) mid).start
      now.t0 now.u0).acts b now.env.dflt now.env.unix bg topic u).mem = _
    have hd0 : ((s0.start r₀.t0 r₀.u0).acts b r₀.env.dflt r₀.env.unix bg topic (r₀.did pr desk bg part)).disk = some k := by
      rw [h₀, acts_append_slot]
      have hc := slot_count (dflt := r₀.env.dflt) (unix := r₀.env.unix) (bg := bg) b topic x (s0.start r₀.t0 r₀.u0)
      generalize (s0.start r₀.t0 r₀.u0).acts b r₀.env.dflt r₀.env.unix bg topic x = s1 at hc
      have hmem : (s1.act b r₀.env.dflt r₀.env.unix bg topic (.did c (.publish topic opts data) t (some .ok))).mem = some k := by
        simp [Slot.act, hret, hdata, hk, hc, Slot.start]
      have := (slot_quiet (dflt := r₀.env.dflt) (unix := r₀.env.unix) b topic k y hy (.inr hlast) _ hmem).2.1
      exact this hw
    obtain ⟨k', e1, e2, e3⟩ := slot_terms b topic k mid (fun q hq => (hmid q hq).1) (.inr (fun q hq => (hmid q hq).2)) _ ⟨k, hd0, rfl, rfl⟩
    refine (slot_quiet b topic _ u (fun a ha => (hu a ha).1) (.inr hul) _ ?_).1
    show Option.map (revive now.t0 now.u0) _ = _
    rw [e1, Option.map_some, revive_same now.t0 now.u0 e2 e3]
  have hdat : (revive now.t0 now.u0 k).data = data := by rw [(revive_data ..).1, hk]
  refine ⟨g1, ?_, ?_⟩
  · intro hlive
    have := g3 topic _ hm (hslot false) hlive
    rwa [hdat] at this
  · intro d hd
    obtain ⟨_, k', e1, e2, e3⟩ := g2 _ hd
    simp only at e1 e3
    rw [hslot true] at e1
    injection e1 with e1
    subst e1
    exact ⟨by rw [e3, hdat], e2⟩

/-- **C120** (partial: likewise).  A value that was cleared does not come back: in some life the topic is cleared (an empty `publish` to be retained) and a
flush succeeds, and from then on nobody retains anything for the topic; then, after however many crashes, nobody is greeted with a value of
the topic. -/
theorem C120_cleared_partial {db : List PubSub.Row} (hn : (db.map (·.1)).Nodup) (hrows : ∀ r ∈ db, r.1.head? ≠ some PubSub.slash)
    (past mid : List (Term E I)) (r₀ now : Term E I) (h : Terms pr desk bg part db ((past ++ r₀ :: mid) ++ [now]))
    {x y : List (Act I)} {c t : Nat} {topic : Str} {opts : PubOpts}
    (h₀ : r₀.did pr desk bg part = x ++ .did c (.publish topic opts []) t (some .ok) :: y) (hret : opts.retain = some true)
    (hy : ∀ a ∈ y, retains topic a = false) (hw : WrittenDown bg y) (hmid : ∀ r ∈ mid, Silence pr desk bg part topic r)
    {l : Nat} {u v : List (Act I)} {p : Str} {τ : Nat} {r : Option Response} (hs : now.did pr desk bg part = u ++ .did l (.subscribe p) τ r :: v)
    (hu : ∀ a ∈ u, retains topic a = false) :
    ∃ said msgs, Script bg l (now.did pr desk bg part) said ∧ arrivedOver l (hubPushes pr now.srv desk bg part now.e0 now.es) <+: said.flatten ∧
      said[u.length]? = some msgs ∧ ∀ d, ⟨topic, d⟩ ∉ msgs := by
  obtain ⟨said, j1, j2, j3, _⟩ := C120_greeting_partial pr desk bg part hn hrows (past ++ r₀ :: mid) now h l
  have hlen : u.length < said.length := by rw [j1.1, hs]; simp
  refine ⟨said, said[u.length], j1, j3, List.getElem?_eq_getElem hlen, ?_⟩
  obtain ⟨g0, g⟩ := j2 u p τ r v hs _ (List.getElem?_eq_getElem hlen)
  intro d hd
  by_cases hend : ∃ a ∈ u, endsLink bg l a
  · rw [g0 hend] at hd; cases hd
  · obtain ⟨_, g2, _⟩ := g (fun a ha he => hend ⟨a, ha, he⟩)
    obtain ⟨_, k', e1, _⟩ := g2 _ hd
    simp only at e1
    have : (slotAt pr desk bg part true topic db (past ++ r₀ :: mid) now u).mem = none := by
      unfold slotAt
      rw [terms_append]
      generalize Slot.terms pr desk bg part true topic { disk := (mget db topic).map rowValue } past = s0
      show (((Slot.terms pr desk bg part true topic ((s0.start r₀.t0 r₀.u0).acts true r₀.env.dflt r₀.env.unix bg topic (r₀.did pr desk bg part)) mid).start
        now.t0 now.u0).acts true now.env.dflt now.env.unix bg topic u).mem = _
      refine (slot_none_acts true topic u hu _ ?_).1
      have hd0 : ((s0.start r₀.t0 r₀.u0).acts true r₀.env.dflt r₀.env.unix bg topic (r₀.did pr desk bg part)).disk = none := by
        rw [h₀, acts_append_slot]
        generalize (s0.start r₀.t0 r₀.u0).acts true r₀.env.dflt r₀.env.unix bg topic x = s1
        have hmem : (s1.act true r₀.env.dflt r₀.env.unix bg topic (.did c (.publish topic opts []) t (some .ok))).mem = none := by
          simp [Slot.act, hret]
        rcases (slot_none_acts (dflt := r₀.env.dflt) (unix := r₀.env.unix) true topic y hy _ hmem).2 with h | ⟨_, h⟩
        · exact h
        · exact absurd hw h
      rw [Slot.start, slot_none_terms true topic mid hmid _ hd0]
      rfl
    rw [this] at e1
    cases e1

end

/-! ## A concrete server -/

/-- The first life: a client retains a value for `a/x`, for a minute, and it is flushed. -/
def exTerm₁ : Term Hub PubSub.Op where
  srv := exHubServer
  env := exHubEnv
  e0 := { st := PubSub.boot [] 0 1000 }
  t0 := 0
  u0 := 1000
  es := [.ev (.lib 0 .connect), .ev (.lib 0 .opened)] ++ exHubReq 0 1 2 (.publish [97, 47, 120] ⟨some true, none⟩ [0, 7]) ++ [.ev (.tick (.flush 3 true))]

def exTermTrace₁ : List (Obs PubSub.Op) :=
  [.ticked (.connect 0)] ++ exHubObs 0 1 2 (.publish [97, 47, 120] ⟨some true, none⟩ [0, 7]) 33 [0, 0, 0, 3, 97, 47, 120, 0, 0, 0, 1, 91, 0, 7]
  ++ [.ticked (.flush 3 true)]

/-- A life in which the server starts at wall clock second `u` from what the first one has left behind, and a client subscribes to `a/#` at time `τ`
and reads what it is sent. -/
def exTerm₂ (u τ : Nat) : Term Hub PubSub.Op where
  srv := exHubServer
  env := exHubEnv
  e0 := { st := PubSub.boot [([97, 47, 120], [0, 7], some 1061)] 0 u }
  t0 := 0
  u0 := u
  es := [.ev (.lib 0 .connect), .ev (.lib 0 .opened)] ++ exHubReq 0 1 τ (.subscribe [97, 47, 35]) ++ exHubGet 0

def exTermTrace₂ (τ : Nat) : List (Obs PubSub.Op) :=
  [.ticked (.connect 0), .called 0 1 (.subscribe [97, 47, 35]) (some (0, 1)), .executed 0 ⟨1, 34, 1, [0, 0, 0, 3, 97, 47, 35]⟩ τ (some .ok),
   .pushed 0 (wirePush [97, 47, 120] [0, 7]), .settled 0 1 (.answer 0 [])]

abbrev exTr (r : Term Hub PubSub.Op) : List (Obs PubSub.Op) := r.trace exHubPrinter exHubDesk exHubBg (fun e => e)
abbrev exOver (r : Term Hub PubSub.Op) : List PubSub.Msg :=
  arrivedOver 0 (hubPushes exHubPrinter r.srv exHubDesk exHubBg (fun e => e) r.e0 r.es)

set_option maxRecDepth 100000 in
theorem exTerm₁_trace : exTr exTerm₁ = exTermTrace₁ := by decide +kernel

set_option maxRecDepth 100000 in
theorem exTerm₁_left : exTerm₁.left exHubPrinter exHubDesk exHubBg (fun e => e) = [([97, 47, 120], [0, 7], some 1061)] := by decide +kernel

set_option maxRecDepth 100000 in
theorem exTerm₂_trace : exTr (exTerm₂ 1030 5) = exTermTrace₂ 5 ∧ exOver (exTerm₂ 1030 5) = [⟨[97, 47, 120], [0, 7]⟩] := by decide +kernel

set_option maxRecDepth 100000 in
theorem exTerm₃_trace : exTr (exTerm₂ 5000 1000000000000000) = exTermTrace₂ 1000000000000000 ∧
    exOver (exTerm₂ 5000 1000000000000000) = [⟨[97, 47, 120], [0, 7]⟩] := by decide +kernel

theorem exTerm₁_ok : exTerm₁.Ok exHubPrinter exHubDesk exHubBg (fun e => e) [] := by
  have hd : exTerm₁.did exHubPrinter exHubDesk exHubBg (fun e => e) = [.ticked (.connect 0),
      .did 0 (.publish [97, 47, 120] ⟨some true, none⟩ [0, 7]) 2 (some .ok), .ticked (.flush 3 true)] := by
    show acts (exTr exTerm₁) = _; rw [exTerm₁_trace]; rfl
  refine ⟨exHubPart, rfl, ?_, ?_, ?_, ?_, ?_⟩
  · show Ordinary exHubPrinter exHubServer (exTr exTerm₁)
    rw [exTerm₁_trace]
    refine ⟨?_, ?_, ?_, fun p => countP_le _ _ _ (by decide)⟩
    · intro o ho cmd hc
      simp only [exTermTrace₁, exHubObs, List.mem_append, List.mem_cons, List.not_mem_nil, or_false, or_assoc] at ho
      rcases ho with rfl | rfl | rfl | rfl | rfl <;> simp only [Obs.cmd?, reduceCtorEq] at hc <;> injection hc with hc <;> subst hc
      refine ⟨show StrOk _ by decide, ⟨by decide, by decide⟩, ?_⟩
      intro op body hb
      injection hb with hb; injection hb with h1 h2; subst h2; decide
    · intro l f now r hm
      simp only [exTermTrace₁, exHubObs, List.mem_append, List.mem_cons, List.not_mem_nil, or_false, or_assoc, reduceCtorEq, false_or, Obs.executed.injEq,
        Option.some.injEq] at hm
      obtain ⟨rfl, rfl, rfl, rfl⟩ := hm; decide
    · intro l p hm
      simp [exTermTrace₁, exHubObs] at hm
  · rw [hd]; intro l p now r hm; simp at hm
  · rw [hd]; unfold ClockActs; decide
  · rw [hd]
    intro c topic opts payload now r hm
    simp only [List.mem_cons, List.not_mem_nil, or_false, reduceCtorEq, false_or, Act.did.injEq, Cmd.publish.injEq] at hm
    obtain ⟨_, ⟨rfl, _⟩, _⟩ := hm
    intro _ h; revert h; decide
  · rw [hd]
    intro x now hm
    simp only [List.mem_cons, List.not_mem_nil, or_false, reduceCtorEq, false_or, Act.ticked.injEq] at hm
    rcases hm with rfl | rfl <;> simp [exHubBg, ofHub]

theorem exTerm₂_ok {u τ : Nat} (h : exTr (exTerm₂ u τ) = exTermTrace₂ τ) :
    (exTerm₂ u τ).Ok exHubPrinter exHubDesk exHubBg (fun e => e) [([97, 47, 120], [0, 7], some 1061)] := by
  have hd : (exTerm₂ u τ).did exHubPrinter exHubDesk exHubBg (fun e => e) = [.ticked (.connect 0), .did 0 (.subscribe [97, 47, 35]) τ (some .ok)] := by
    show acts (exTr (exTerm₂ u τ)) = _; rw [h]; rfl
  refine ⟨exHubPart, rfl, ?_, ?_, ?_, ?_, ?_⟩
  · show Ordinary exHubPrinter exHubServer (exTr (exTerm₂ u τ))
    rw [h]
    refine ⟨?_, ?_, ?_, ?_⟩
    · intro o ho cmd hc
      simp only [exTermTrace₂, List.mem_append, List.mem_cons, List.not_mem_nil, or_false, or_assoc] at ho
      rcases ho with rfl | rfl | rfl | rfl | rfl <;> simp only [Obs.cmd?, reduceCtorEq] at hc <;> injection hc with hc <;> subst hc
      refine ⟨show StrOk _ by decide, trivial, ?_⟩
      intro op body hb
      injection hb with hb; injection hb with h1 h2; subst h2; decide
    · intro l f now r hm
      simp only [exTermTrace₂, List.mem_append, List.mem_cons, List.not_mem_nil, or_false, or_assoc, reduceCtorEq, false_or, Obs.executed.injEq,
        Option.some.injEq] at hm
      obtain ⟨rfl, rfl, rfl, rfl⟩ := hm; decide
    · intro l p hm
      simp only [exTermTrace₂, List.mem_cons, List.not_mem_nil, or_false, reduceCtorEq, false_or, Obs.pushed.injEq] at hm
      obtain ⟨rfl, rfl⟩ := hm; decide
    · intro p; exact countP_le _ _ _ (show (exTermTrace₂ τ).length < 2 ^ 31 - 1 from by simp [exTermTrace₂])
  · rw [hd]; intro l p now r hm
    simp only [List.mem_cons, List.not_mem_nil, or_false, reduceCtorEq, false_or, Act.did.injEq, Cmd.subscribe.injEq, false_and, and_false] at hm
    obtain ⟨_, rfl, _⟩ := hm; decide
  · rw [hd]; unfold ClockActs; simp [readings, exHubBg, ofHub, exTerm₂]
  · rw [hd]; intro c topic opts payload now r hm; simp at hm
  · rw [hd]
    intro x now hm
    simp only [List.mem_cons, List.not_mem_nil, or_false, reduceCtorEq, Act.ticked.injEq] at hm
    subst hm; simp [exHubBg, ofHub]

theorem exTerms {u τ : Nat} (h : exTr (exTerm₂ u τ) = exTermTrace₂ τ) : Terms exHubPrinter exHubDesk exHubBg (fun e => e) [] ([exTerm₁] ++ [exTerm₂ u τ]) := by
  refine ⟨exTerm₁_ok, ?_, trivial⟩
  rw [exTerm₁_left]
  exact exTerm₂_ok h

/-- The hypotheses of `C120_survives_partial` (and with it of `C120_greeting_partial`) are met: the value is there after the crash, with 31 seconds left. -/
example : ∃ said msgs, Script exHubBg 0 ((exTerm₂ 1030 5).did exHubPrinter exHubDesk exHubBg (fun e => e)) said ∧ exOver (exTerm₂ 1030 5) <+: said.flatten ∧
    said[1]? = some msgs ∧ ⟨[97, 47, 120], [0, 7]⟩ ∈ msgs := by
  have h₁ : exTerm₁.did exHubPrinter exHubDesk exHubBg (fun e => e) = [.ticked (.connect 0)] ++
      .did 0 (.publish [97, 47, 120] ⟨some true, none⟩ [0, 7]) 2 (some .ok) :: [.ticked (.flush 3 true)] := by
    show acts (exTr exTerm₁) = _; rw [exTerm₁_trace]; rfl
  have h₂ : (exTerm₂ 1030 5).did exHubPrinter exHubDesk exHubBg (fun e => e) = [.ticked (.connect 0)] ++ .did 0 (.subscribe [97, 47, 35]) 5 (some .ok) :: [] := by
    show acts (exTr (exTerm₂ 1030 5)) = _; rw [exTerm₂_trace.1]; rfl
  obtain ⟨said, msgs, k1, k2, k3, _, k5, _⟩ := C120_survives_partial exHubPrinter exHubDesk exHubBg (fun e => e) (db := []) (by simp) (by intro r h; cases h) [] []
    exTerm₁ (exTerm₂ 1030 5) (exTerms exTerm₂_trace.1) h₁ rfl (by decide) (by decide) ⟨_, List.mem_singleton.mpr rfl, _, _, rfl, rfl⟩ rfl
    (by intro x now hx hb
        cases List.mem_singleton.mp hx
        have : now = 3 := by simp [exHubBg, ofHub] at hb; exact hb.symm
        subst this; decide) (by intro r hr; cases hr) h₂
    (by intro a ha; cases List.mem_singleton.mp ha
        refine ⟨rfl, ?_⟩
        rintro ⟨x, hx, hb⟩
        cases hx
        simp [exHubBg, ofHub] at hb)
    (by intro x now hx hb
        cases List.mem_singleton.mp hx
        simp [exHubBg, ofHub] at hb)
    (.level (by decide) (by decide) .hash)
  exact ⟨said, msgs, k1, k2, k3, k5 (by decide)⟩

/-- **C120 is violated.**  A value is retained for a minute and flushed; the server is down when the minute is over, and starts an hour later; more than eleven
days after that a subscriber is greeted with the value. -/
theorem C120_violated : ∃ rs : List (Term Hub PubSub.Op), Terms exHubPrinter exHubDesk exHubBg (fun e => e) [] rs ∧ ∃ r₀ now, rs = [r₀, now] ∧
    acts (exTr r₀) = [.ticked (.connect 0), .did 0 (.publish [97, 47, 120] ⟨some true, none⟩ [0, 7]) 2 (some .ok), .ticked (.flush 3 true)] ∧
    r₀.env.unix 1 + r₀.env.dflt = 1061 ∧ now.u0 = 5000 ∧ now.t0 = 0 ∧
    acts (exTr now) = [.ticked (.connect 0), .did 0 (.subscribe [97, 47, 35]) 1000000000000000 (some .ok)] ∧ exOver now = [⟨[97, 47, 120], [0, 7]⟩] := by
  refine ⟨_, exTerms exTerm₃_trace.1, exTerm₁, _, rfl, ?_, rfl, rfl, rfl, ?_, exTerm₃_trace.2⟩
  · rw [exTerm₁_trace]; rfl
  · rw [exTerm₃_trace.1]; rfl

end Verif.Rpc
