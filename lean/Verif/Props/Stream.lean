import Verif.Proofs.StreamTrace

/-!
# Properties of consumer groups (C42–C53)

`t` is a topic at the start of a run of the server (`Started`: just created, or restored from files in order); `es` is
any history of requests (all their steps interleaved), background tasks and storage steps.  `hnd` says that the consumer
ids handed out by joins are fresh (they are random UUIDs).  `given … es e` is what the event `e` after the history `es`
delivers to the group; `viewAfter … es` is what an observer of the requests and answers knows (`Spec/StreamGroup.lean`).
-/

namespace Verif.Stream

/-! ### A concrete history for the examples -/

namespace Ex

def crc : Bytes → Nat := fun _ => 0

def cfg : Cfg :=
  { softLimit := 10, maxSegment := 1000, retention := ⟨none, none⟩, maxPending := 3, ackWait := 10, maxDeliveries := 2 }

def t0 : Topic := Topic.fresh crc cfg

/-- Group, consumers and connections. -/
def g : Str := [103]
def h : Str := [104]
def c1 : Str := [1]
def c2 : Str := [2]
def k1 : Str := [11]
def k2 : Str := [12]

theorem started : Started crc t0 := by
  refine ⟨by decide, id, { segs := [], writers := [], groups := none }, ⟨?_, ?_, ?_⟩, rfl⟩
  · intro i m m0 h; simp [recover] at h
  · intro m h; simp [recover] at h
  · intro s h; cases h

/-- Two consumers; three messages; the first consumer gets two of them. -/
def es1 : List Ev :=
  [.join g k1 c1, .join g k2 c2, .publish 5 [1], .send 0, .publish 5 [2], .send 0, .publish 5 [3], .send 0,
   .fetch g c1 1 2 false, .attempt 0 100]

/-- The first consumer acknowledges the first message and leaves; the second one asks. -/
def es2 : List Ev := [.ack g c1 1 1, .leave g c1 1 [], .fetch g c2 1 5 false]

end Ex

example : given Ex.crc Ex.t0 Ex.g (Ex.es1.take 9) (.attempt 0 100) = [1, 2] := by decide
example : given Ex.crc Ex.t0 Ex.g (Ex.es1 ++ Ex.es2) (.attempt 1 101) = [2, 3] := by decide
example : (joinIds Ex.g (Ex.es1 ++ Ex.es2)).Nodup := by decide
example : (List.range 5).map (viewAfter Ex.crc Ex.t0 Ex.g (Ex.es1 ++ Ex.es2)).fate
    = [.skipped, .acked, .waiting 1, .fresh, .fresh] := by decide

section

variable {crc : Bytes → Nat} {t : Topic} (hst : Started crc t) (name : Str)
include hst

/-! ### C43: order of first deliveries -/

/-- **C43** First deliveries are in increasing order: what is delivered for the first time since the last seek comes
after everything that has been delivered since then. -/
theorem C43_in_order (es : List Ev) (e : Ev) (hnd : (joinIds name es).Nodup) (s s' : Nat)
    (hs' : 0 < sinceSeek name s' (t.trace crc es))
    (hs : s ∈ given crc t name es e) (hfirst : sinceSeek name s (t.trace crc es) = 0) : s' < s := by
  have heff := hst.effect name es e hnd
  obtain ⟨a1, _, _, a4⟩ := heff.gives_legal hs
  obtain ⟨J, hr, _, _, _⟩ := hst.reach name es hnd
  have c1 := (counted_unknown hst s es hnd).1
  have c2 := (counted_unknown hst s' es hnd).1
  cases hg : mget (t.run crc es).groups name with
  | none =>
    have := hr.known
    rw [a4] at this
    simp [mhas, hg] at this
  | some g =>
    have hc := (hr.grp g hg).inv.core
    have hf : (viewAfter crc t name es).fate s = .fresh := by
      rcases a1 with h | ⟨k, h, _⟩
      · exact h
      · rw [h] at c1; simp only [Counted] at c1; omega
    have hn := (hc.fresh s).1 hf
    have hn' : ¬ g.next ≤ s' := by
      intro h
      rw [(hc.fresh s').2 h] at c2
      simp only [Counted] at c2
      omega
    omega

/-- **C43** Within one answer, the messages that are delivered for the first time are in increasing order as well. -/
theorem C43_answer_in_order (es : List Ev) (e : Ev) (hnd : (joinIds name es).Nodup) :
    ((given crc t name es e).filter (fun s => sinceSeek name s (t.trace crc es) = 0)).Pairwise (· < ·) := by
  have heff := hst.effect name es e hnd
  have hcnt := fun s => (counted_unknown hst s es hnd).1
  unfold given
  cases ho : ((t.run crc es).step crc e).2 with
  | fetched q r =>
    cases r with
    | error x => exact List.Pairwise.nil
    | ok ms =>
      rw [ho] at heff
      simp only [Out.gives]
      split
      · next hq =>
        have hl : ∃ now, Legal t.cfg.maxDeliveries t.cfg.ackWait q.consumer now (viewAfter crc t name es).fate ms := by
          generalize viewAfter crc t name (es ++ [e]) = v' at heff
          cases heff with
          | delivery _ _ _ now _ hl => exact ⟨now, hl⟩
          | other _ _ _ hg =>
            simp only [Out.gives, if_pos hq, List.map_eq_nil_iff] at hg
            rw [hg]; exact ⟨0, trivial⟩
          | seek b o hg =>
            simp only [Out.gives, if_pos hq, List.map_eq_nil_iff] at hg
            rw [hg]; exact ⟨0, trivial⟩
        obtain ⟨now, hl⟩ := hl
        have hz : ∀ s, sinceSeek name s (t.trace crc es) = 0 → (∀ k, (viewAfter crc t name es).fate s ≠ .waiting k) := by
          intro s hs k hk
          have := hcnt s
          rw [hk] at this
          simp only [Counted] at this
          omega
        clear heff hcnt ho
        revert hz
        generalize (viewAfter crc t name es).fate = F at hl
        intro hz
        induction ms generalizing F with
        | nil => exact List.Pairwise.nil
        | cons m ms ih =>
          obtain ⟨h1, h2⟩ := hl
          have hz' : ∀ s, sinceSeek name s (t.trace crc es) = 0 →
              ∀ k, fates t.cfg.maxDeliveries t.cfg.ackWait F (.delivered q.consumer now m.seq) s ≠ .waiting k := by
            intro s hs k
            simp only [fates_delivered]
            split
            · intro h; cases h
            · exact hz s hs k
          have ih' := ih _ h2 hz'
          rw [List.map_cons, List.filter_cons]
          split
          · next hs0 =>
            simp only [decide_eq_true_eq] at hs0
            refine List.pairwise_cons.2 ⟨fun s hs => ?_, ih'⟩
            simp only [List.mem_filter, decide_eq_true_eq] at hs
            have hm := (legal_mem h2 hs.1).1
            rcases hm with hm | ⟨k, hm, _⟩
            · simp only [fates_delivered] at hm
              split at hm
              · cases hm
              · next hne =>
                rcases h1 with ⟨h1, h3⟩ | ⟨k, h1, _⟩
                · have := h3 s
                  apply Nat.lt_of_le_of_ne
                  · exact Nat.le_of_not_lt (fun hlt => this hlt hm)
                  · exact hne
                · exact absurd h1 (hz _ hs0 k)
            · exact absurd hm (hz' s hs.2 k)
          · exact ih'
      · exact List.Pairwise.nil
  | _ => exact List.Pairwise.nil

/-- **C43** First deliveries have no gaps: below a message that has been delivered since the last seek, every message
has been delivered since then too, or has been removed by retention, or lies before the point where the group started. -/
theorem C43_no_gap (es : List Ev) (hnd : (joinIds name es).Nodup) (s s' : Nat) (hlt : s' < s)
    (hs : 0 < sinceSeek name s (t.trace crc es)) :
    0 < sinceSeek name s' (t.trace crc es)
    ∨ (viewAfter crc t name es).fate s' = .removed ∨ (viewAfter crc t name es).fate s' = .skipped := by
  obtain ⟨J, hr, _, _, _⟩ := hst.reach name es hnd
  obtain ⟨c1, u1⟩ := counted_unknown hst s es hnd
  obtain ⟨c2, _⟩ := counted_unknown hst s' es hnd
  cases hg : mget (t.run crc es).groups name with
  | none =>
    have := hr.known
    simp only [mhas, hg] at this
    have := (u1 this).1
    omega
  | some g =>
    have hc := (hr.grp g hg).inv.core
    have hn : ¬ g.next ≤ s := by
      intro h
      rw [(hc.fresh s).2 h] at c1
      simp only [Counted] at c1
      omega
    have hmax := hst.1
    cases hf : (viewAfter crc t name es).fate s' with
    | fresh => exact absurd ((hc.fresh s').1 hf) (by omega)
    | removed => exact .inr (.inl rfl)
    | skipped => exact .inr (.inr rfl)
    | held c t k => rw [hf] at c2; simp only [Counted] at c2; left; omega
    | waiting k => rw [hf] at c2; simp only [Counted] at c2; left; omega
    | acked => rw [hf] at c2; simp only [Counted] at c2; left; omega
    | gaveUp => rw [hf] at c2; simp only [Counted] at c2; left; omega

omit hst in
/-- Both can happen: after `es1` messages 1 and 2 have been delivered, message 3 comes next. -/
example : sinceSeek Ex.g 2 (Ex.t0.trace Ex.crc (Ex.es1 ++ Ex.es2)) = 1
    ∧ sinceSeek Ex.g 3 (Ex.t0.trace Ex.crc (Ex.es1 ++ Ex.es2)) = 0
    ∧ 3 ∈ given Ex.crc Ex.t0 Ex.g (Ex.es1 ++ Ex.es2) (.attempt 1 101) := by decide

/-! ### C42: nothing is skipped -/

/-- **C42** A group that has delivered a message since its last seek has dealt with every earlier one: it has been
acknowledged, is held, waits for redelivery, was given up after `max_deliveries` deliveries, has been removed by
retention, or lies before the point where the group started. -/
theorem C42_nothing_skipped (es : List Ev) (hnd : (joinIds name es).Nodup) (s s' : Nat) (hlt : s' < s)
    (hs : 0 < sinceSeek name s (t.trace crc es)) :
    (viewAfter crc t name es).fate s' ≠ .fresh
    ∧ ((viewAfter crc t name es).fate s' = .gaveUp → sinceSeek name s' (t.trace crc es) = t.cfg.maxDeliveries)
    ∧ ((viewAfter crc t name es).fate s' = .acked → 0 < sinceSeek name s' (t.trace crc es)) := by
  obtain ⟨J, hr, _, _, _⟩ := hst.reach name es hnd
  obtain ⟨c1, u1⟩ := counted_unknown hst s es hnd
  obtain ⟨c2, _⟩ := counted_unknown hst s' es hnd
  refine ⟨fun hf => ?_, fun hf => ?_, fun hf => ?_⟩
  · rcases C43_no_gap hst name es hnd s s' hlt hs with h | h | h
    · rw [hf] at c2; simp only [Counted] at c2; omega
    · rw [hf] at h; cases h
    · rw [hf] at h; cases h
  · rw [hf] at c2; exact c2
  · rw [hf] at c2; simp only [Counted] at c2; omega

/-- **C42** The group really keeps track: what the observer knows to be held is in the group's list of unacknowledged
messages, what waits is in its redelivery queue, and the next message that it has not delivered yet is the first one
that the observer calls fresh. -/
theorem C42_tracked (es : List Ev) (hnd : (joinIds name es).Nodup) (g : Group)
    (hg : mget (t.run crc es).groups name = some g) (s : Nat) :
    (∀ c at_ k, (viewAfter crc t name es).fate s = .held c at_ k ↔ mget g.pending s = some ⟨c, at_, k⟩)
    ∧ ((∃ k, (viewAfter crc t name es).fate s = .waiting k) ↔ s ∈ g.redeliver)
    ∧ ((viewAfter crc t name es).fate s = .fresh ↔ g.next ≤ s) := by
  obtain ⟨J, hr, _, _, _⟩ := hst.reach name es hnd
  have hc := (hr.grp g hg).inv.core
  refine ⟨hc.held s, ⟨fun ⟨k, hk⟩ => ((hc.waiting s k).1 hk).1, fun h => ?_⟩, hc.fresh s⟩
  obtain ⟨k, hk⟩ := hc.redAtt s h
  exact ⟨k, (hc.waiting s k).2 ⟨h, hk⟩⟩

omit hst in
example : (mget (Ex.t0.run Ex.crc (Ex.es1 ++ Ex.es2)).groups Ex.g).map (fun g => (g.pending.length, g.redeliver, g.next))
    = some (0, [2], 3) := by decide

/-! ### C44: one holder -/

/-- **C44** If a message is delivered to `c` and later delivered again, then in between `c` has left, or the connection
over which `c` joined was closed, or the redelivery task ran after the deadline of that delivery, or the group was
sought. -/
theorem C44_one_holder (es1 es2 : List Ev) (e1 e2 : Ev) (hnd : (joinIds name (es1 ++ e1 :: es2)).Nodup) (s now : Nat)
    (c : Str) (h1 : Delivers crc t name es1 e1 c now s) (h2 : s ∈ given crc t name (es1 ++ e1 :: es2) e2) :
    ∃ a x b, es2 = a ++ x :: b ∧
      ((∃ gen order, x = .leave name c gen order ∧ ((t.run crc (es1 ++ e1 :: a)).step crc x).2 = .ok)
      ∨ (∃ conn order, x = .disconnect conn order ∧ .join name conn c ∈ es1 ++ e1 :: a)
      ∨ (∃ now' order, x = .tick now' order ∧ now' - now > t.cfg.ackWait)
      ∨ ∃ toEnd, x = .seek name toEnd) := by
  apply Classical.byContradiction
  intro hno
  -- otherwise the message stays with `c`, or is settled
  have hbase : (∃ k, (viewAfter crc t name (es1 ++ [e1])).fate s = .held c now k)
      ∧ (viewAfter crc t name (es1 ++ [e1])).known = true := by
    have heff := hst.effect name es1 e1 (joinIds_prefix hnd)
    obtain ⟨hev, q, ms, ho, hq, hc, m, hm, hms⟩ := h1
    rw [ho] at heff
    have hmem : s ∈ ms.map (·.seq) := List.mem_map.2 ⟨m, hm, hms⟩
    generalize viewAfter crc t name (es1 ++ [e1]) = v' at heff ⊢
    cases heff with
    | delivery _ _ _ now' _ hl _ hk he =>
      have hnow : now' = now := by
        rcases hev with ⟨id, hev⟩ | ⟨id, hev⟩ <;> rcases he with ⟨id', he⟩ | ⟨id', he⟩ <;> rw [hev] at he <;> cases he <;> rfl
      subst hnow
      refine ⟨⟨((viewAfter crc t name es1).fate s).count + 1, ?_⟩, hk (fun h => by subst h; cases hm)⟩
      simp only [View.obs]
      rw [foldl_fates, ← hc]
      exact (legal_mem hl hmem).2.1
    | other _ _ _ hg =>
      simp only [Out.gives, if_pos hq] at hg
      rw [hg] at hmem; cases hmem
    | seek b o hg =>
      simp only [Out.gives, if_pos hq] at hg
      rw [hg] at hmem; cases hmem
  have key : ∀ b a, es2 = a ++ b →
      ((((∃ k, (viewAfter crc t name (es1 ++ e1 :: a)).fate s = .held c now k)
        ∨ (viewAfter crc t name (es1 ++ e1 :: a)).fate s = .acked
        ∨ (viewAfter crc t name (es1 ++ e1 :: a)).fate s = .removed)
        ∧ (viewAfter crc t name (es1 ++ e1 :: a)).known = true)) →
      (((∃ k, (viewAfter crc t name (es1 ++ e1 :: es2)).fate s = .held c now k)
        ∨ (viewAfter crc t name (es1 ++ e1 :: es2)).fate s = .acked
        ∨ (viewAfter crc t name (es1 ++ e1 :: es2)).fate s = .removed)
        ∧ (viewAfter crc t name (es1 ++ e1 :: es2)).known = true) := by
    intro b
    induction b with
    | nil => intro a ha h; rw [ha, List.append_nil]; exact h
    | cons x b ih =>
      intro a ha h
      refine ih (a ++ [x]) (by rw [ha]; simp) ?_
      have hnd' : (joinIds name ((es1 ++ e1 :: a) ++ [x])).Nodup := by
        rw [ha] at hnd
        have e : es1 ++ e1 :: (a ++ x :: b) = ((es1 ++ e1 :: a) ++ [x]) ++ b := by simp
        rw [e] at hnd
        exact joinIds_prefix hnd
      have heff := hst.effect name (es1 ++ e1 :: a) x (joinIds_prefix hnd')
      have e' : es1 ++ e1 :: (a ++ [x]) = (es1 ++ e1 :: a) ++ [x] := by simp
      rw [e']
      obtain ⟨hf, hk⟩ := h
      refine ⟨?_, heff.known hk⟩
      have hns : ∀ b', x ≠ .seek name b' := fun b' hb => hno ⟨a, x, b, ha, .inr (.inr (.inr ⟨b', hb⟩))⟩
      have hng : s ∉ ((t.run crc (es1 ++ e1 :: a)).step crc x).2.gives name := by
        intro hg
        have := (heff.gives_legal hg).1
        rcases hf with ⟨k, hf⟩ | hf | hf <;> rw [hf] at this <;> rcases this with h | ⟨_, h, _⟩ <;> cases h
      rcases heff.keeps hns (.inl hk) hng with h | ⟨_, _, _, _, _, h⟩ | ⟨c', t', k', h, _, hw⟩ | ⟨_, _, _, _, h⟩
      · rw [h]; exact hf
      · exact .inr (.inl h)
      · rcases hf with ⟨k, hf⟩ | hf | hf
        · rw [hf] at h
          cases h
          exfalso
          refine hno ⟨a, x, b, ha, ?_⟩
          rcases hw with ⟨gen, order, hx, ho⟩ | ⟨conn, order, hx, hm⟩ | ⟨now', order, hx, hd⟩
          · exact .inl ⟨gen, order, hx, ho⟩
          · refine .inr (.inl ⟨conn, order, hx, ?_⟩)
            have := members_joined hst (name := name) [] (es1 ++ e1 :: a) (by simpa using joinIds_prefix hnd') (c := c)
              (conn := conn) (by simpa using hm)
            rcases this with h | h
            · cases h
            · exact h
          · exact .inr (.inr (.inl ⟨now', order, hx, hd⟩))
        · rw [hf] at h; cases h
        · rw [hf] at h; cases h
      · exact .inr (.inr h)
  have hfin := key es2 [] rfl ⟨.inl hbase.1, hbase.2⟩
  have heff := hst.effect name (es1 ++ e1 :: es2) e2 hnd
  have := (heff.gives_legal h2).1
  rcases hfin.1 with ⟨k, hf⟩ | hf | hf <;> rw [hf] at this <;> rcases this with h | ⟨_, h, _⟩ <;> cases h

omit hst in
/-- A message that is delivered twice: its first holder has left. -/
example : Delivers Ex.crc Ex.t0 Ex.g (Ex.es1.take 9) (.attempt 0 100) Ex.c1 100 2
    ∧ 2 ∈ given Ex.crc Ex.t0 Ex.g (Ex.es1.take 9 ++ .attempt 0 100 :: Ex.es2) (.attempt 1 101) := by
  refine ⟨⟨.inl ⟨0, rfl⟩, ⟨Ex.g, Ex.c1, 1, 2⟩, [⟨1, 5, [1]⟩, ⟨2, 5, [2]⟩], rfl, rfl, rfl, ?_⟩, by decide⟩
  exact ⟨⟨2, 5, [2]⟩, by decide, rfl⟩

/-! ### C45: acknowledged messages stay away -/

/-- **C45** After a successful acknowledgement the message is not delivered to the group again until the next seek (or
restart). -/
theorem C45_acked_not_redelivered (es1 es2 : List Ev) (e : Ev) (c : Str) (gen s : Nat)
    (hnd : (joinIds name (es1 ++ .ack name c gen s :: es2)).Nodup)
    (hok : ((t.run crc es1).step crc (.ack name c gen s)).2 = .ok) (hns : NoSeek name es2) :
    s ∉ given crc t name (es1 ++ .ack name c gen s :: es2) e := by
  have e1 : es1 ++ .ack name c gen s :: es2 = (es1 ++ [.ack name c gen s]) ++ es2 := by simp
  rw [e1] at hnd ⊢
  have key := hist_ind (name := name) hst
    (fun _ v => v.known = true ∧ (v.fate s = .acked ∨ v.fate s = .removed))
    (fun e => ∀ b, e ≠ .seek name b) ?_ es2 (es1 ++ [.ack name c gen s]) hnd
    (fun e he b hb => hns b (by rw [← hb]; exact he)) ?_
  · intro hg
    have heff := hst.effect name _ e hnd
    have := (heff.gives_legal hg).1
    rcases key.2 with hf | hf <;> rw [hf] at this <;> rcases this with h | ⟨_, h, _⟩ <;> cases h
  · intro es e v' _ hns ⟨hk, hf⟩ heff
    refine ⟨heff.known hk, ?_⟩
    have hng : s ∉ ((t.run crc es).step crc e).2.gives name := by
      intro hg
      have := (heff.gives_legal hg).1
      rcases hf with hf | hf <;> rw [hf] at this <;> rcases this with h | ⟨_, h, _⟩ <;> cases h
    rcases heff.keeps hns (.inl hk) hng with h | ⟨_, _, _, _, _, h⟩ | ⟨c', t', k', h, _, _⟩ | ⟨_, _, _, _, h⟩
    · rw [h]; exact hf
    · exact .inl h
    · rcases hf with hf | hf <;> rw [hf] at h <;> cases h
    · exact .inr h
  · obtain ⟨J, hr, _, _, _⟩ := hst.reach name es1 (joinIds_prefix (joinIds_prefix hnd))
    have hk := ((ack_iff hr c gen s).1 hok).1
    rw [viewAfter_snoc, hok]
    simp only [View.step, if_pos]
    refine ⟨hk, .inl ?_⟩
    show Fate.step t.cfg.maxDeliveries t.cfg.ackWait s ((viewAfter crc t name es1).fate s) (.acked s) = _
    cases (viewAfter crc t name es1).fate s <;> simp [Fate.step]

omit hst in
example : ((Ex.t0.run Ex.crc Ex.es1).step Ex.crc (.ack Ex.g Ex.c1 1 1)).2 = .ok
    ∧ NoSeek Ex.g (Ex.es2.drop 1)
    ∧ given Ex.crc Ex.t0 Ex.g (Ex.es1 ++ .ack Ex.g Ex.c1 1 1 :: Ex.es2.drop 1) (.attempt 1 101) = [2, 3] := by
  refine ⟨rfl, ?_, by decide⟩
  intro b h
  simp [Ex.es2] at h

/-! ### C46: backpressure -/

omit hst in
theorem nodup_le_length {α : Type} [DecidableEq α] {l m : List α} (hn : l.Nodup) (hs : ∀ x ∈ l, x ∈ m) :
    l.length ≤ m.length := by
  induction l generalizing m with
  | nil => exact Nat.zero_le _
  | cons x l ih =>
    obtain ⟨h1, h2⟩ := List.nodup_cons.1 hn
    have hx := hs x List.mem_cons_self
    have := ih (m := m.erase x) h2 (fun y hy => by
      have hne : y ≠ x := fun h => h1 (h ▸ hy)
      exact (List.mem_erase_of_ne hne).2 (hs y (List.mem_cons_of_mem _ hy)))
    rw [List.length_erase_of_mem hx] at this
    have : 0 < m.length := List.length_pos_of_mem hx
    rw [List.length_cons]
    omega

/-- **C46** The messages that the consumers of a group hold are never more than `max_ack_pending`. -/
theorem C46_backpressure (es : List Ev) (hnd : (joinIds name es).Nodup) (L : List Nat) (hL : L.Nodup)
    (hheld : ∀ s ∈ L, ∃ c at_ k, (viewAfter crc t name es).fate s = .held c at_ k)
    (hknown : (viewAfter crc t name es).known = true) :
    L.length ≤ t.cfg.maxPending := by
  obtain ⟨J, hr, _, hcfg, _⟩ := hst.reach name es hnd
  cases hg : mget (t.run crc es).groups name with
  | none =>
    have := hr.known
    rw [hknown] at this
    simp [mhas, hg] at this
  | some g =>
    have hgr := hr.grp g hg
    have hc := hgr.inv.core
    have : L.length ≤ (g.pending.map (·.1)).length := by
      refine nodup_le_length hL (fun s hs => ?_)
      obtain ⟨c, at_, k, h⟩ := hheld s hs
      exact List.mem_map.2 ⟨_, mget_some_mem ((hc.held s c at_ k).1 h), rfl⟩
    rw [List.length_map] at this
    have h2 := hc.bound
    rw [hgr.mp, hcfg] at h2
    omega

/-- **C46** A fetch that is answered from memory returns at most as many messages as it has asked for. -/
theorem C46_limit (es : List Ev) (hnd : (joinIds name es).Nodup) (id now : Nat) (q : Query) (ms : List Msg)
    (hq : q.group = name) (h : ((t.run crc es).step crc (.attempt id now)).2 = .fetched q (.ok ms)) :
    ms.length ≤ q.limit := by
  obtain ⟨J, hr, hi, _, _⟩ := hst.reach name es hnd
  exact ((attempt_rel hi hr id now).2.2 q ms h hq).1

omit hst in
/-- The bound is met: with three messages held, a fourth one is not delivered. -/
example : (viewAfter Ex.crc Ex.t0 Ex.g (Ex.es1 ++ [.publish 6 [4], .fetch Ex.g Ex.c2 1 9 false, .attempt 1 101])).fate 3
      = .held Ex.c2 101 1
    ∧ (viewAfter Ex.crc Ex.t0 Ex.g (Ex.es1 ++ [.publish 6 [4], .fetch Ex.g Ex.c2 1 9 false, .attempt 1 101])).fate 4
      = .fresh := by decide

/-! ### C47: delivery limit -/

/-- **C47** Since the last seek, no message has been delivered to the group more often than `max_deliveries`. -/
theorem C47_delivery_limit (es : List Ev) (hnd : (joinIds name es).Nodup) (s : Nat) :
    sinceSeek name s (t.trace crc es) ≤ t.cfg.maxDeliveries := by
  have h := (counted_unknown hst s es hnd).1
  revert h
  cases (viewAfter crc t name es).fate s <;> simp only [Counted] <;> omega

/-- **C47** A message whose last allowed delivery was taken back is not delivered again before the next seek. -/
theorem C47_set_aside (es : List Ev) (e : Ev) (hnd : (joinIds name es).Nodup) (s : Nat)
    (h : sinceSeek name s (t.trace crc es) = t.cfg.maxDeliveries) : s ∉ given crc t name es e := by
  intro hg
  have heff := hst.effect name es e hnd
  have hc := (counted_unknown hst s es hnd).1
  have hm := hst.1
  rcases (heff.gives_legal hg).1 with hf | ⟨k, hf, _⟩
  · rw [hf] at hc; simp only [Counted] at hc; omega
  · rw [hf] at hc; simp only [Counted] at hc; omega

omit hst in
/-- The limit (2) is reached, and then the message is set aside. -/
example : sinceSeek Ex.g 2 (Ex.t0.trace Ex.crc (Ex.es1 ++ Ex.es2 ++ [.attempt 1 101])) = 2
    ∧ (viewAfter Ex.crc Ex.t0 Ex.g (Ex.es1 ++ Ex.es2 ++ [.attempt 1 101, .disconnect Ex.k2 (fun _ => [])])).fate 2
      = .gaveUp := by decide

/-! ### C48: only the holder acknowledges -/

/-- **C48** An acknowledgement is accepted exactly if the consumer is a member, names the current generation and holds
the message. -/
theorem C48_accepted_iff (es : List Ev) (hnd : (joinIds name es).Nodup) (c : Str) (gen s : Nat) :
    ((t.run crc es).step crc (.ack name c gen s)).2 = .ok ↔
      gen = (viewAfter crc t name es).gen ∧ (∃ conn, (c, conn) ∈ (viewAfter crc t name es).members)
      ∧ ∃ at_ k, (viewAfter crc t name es).fate s = .held c at_ k := by
  obtain ⟨J, hr, _, _, _⟩ := hst.reach name es hnd
  refine (ack_iff hr c gen s).trans ⟨fun h => h.2, fun h => ⟨?_, h⟩⟩
  exact hr.known_of_member h.2.1.choose_spec

/-- **C48** A rejected acknowledgement changes nothing: every group, the log and all requests in progress are as
before. -/
theorem C48_rejected_unchanged (es : List Ev) (hnd : (joinIds name es).Nodup) (c : Str) (gen s : Nat)
    (h : ((t.run crc es).step crc (.ack name c gen s)).2 ≠ .ok) :
    (∀ n, mget ((t.run crc es).step crc (.ack name c gen s)).1.groups n = mget (t.run crc es).groups n)
    ∧ ∃ gs, ((t.run crc es).step crc (.ack name c gen s)).1 = { t.run crc es with groups := gs } := by
  obtain ⟨J, hr, _, _, _⟩ := hst.reach name es hnd
  simp only [Topic.step, Topic.ack] at h ⊢
  cases hg : mget (t.run crc es).groups name with
  | none => exact ⟨fun n => rfl, _, rfl⟩
  | some g =>
    rw [hg] at h
    have hgr := hr.grp g hg
    have hcl : g.clampHead (t.run crc es).log.head = (g, false) := by rw [← hr.head]; exact hgr.clamped
    simp only [hcl] at h ⊢
    cases ha : (g.ack c gen s).2 with
    | none => rw [ha] at h; exact absurd rfl h
    | some e =>
      simp only
      refine ⟨fun n => ?_, _, rfl⟩
      rw [ack_err ha, mget_mset]
      split
      · next hn => subst hn; exact hg.symm
      · rfl

omit hst in
example : ((Ex.t0.run Ex.crc Ex.es1).step Ex.crc (.ack Ex.g Ex.c1 1 1)).2 = .ok
    ∧ ((Ex.t0.run Ex.crc Ex.es1).step Ex.crc (.ack Ex.g Ex.c2 1 1)).2 = .err .notOwner
    ∧ ((Ex.t0.run Ex.crc Ex.es1).step Ex.crc (.ack Ex.g Ex.c1 2 1)).2 = .err .fenced
    ∧ ((Ex.t0.run Ex.crc Ex.es1).step Ex.crc (.ack Ex.g Ex.c1 1 3)).2 = .err .notPending := ⟨rfl, rfl, rfl, rfl⟩

/-! ### C49: seek -/

theorem seek_members (es : List Ev) (b : Bool) :
    (viewAfter crc t name (es ++ [.seek name b])).members = [] := by
  rw [viewAfter_snoc]
  simp only [View.step, if_pos]

/-- **C49** After a seek only consumers that have joined after it receive messages, even if their request was in progress
at the time of the seek. -/
theorem C49_fenced_fetch (es1 es2 : List Ev) (b : Bool) (e : Ev) (c : Str) (now s : Nat)
    (hnd : (joinIds name (es1 ++ .seek name b :: es2)).Nodup)
    (h : Delivers crc t name (es1 ++ .seek name b :: es2) e c now s) :
    (∃ conn, .join name conn c ∈ es2) ∧ c ∉ joinIds name es1 := by
  obtain ⟨_, q, ms, ho, hq, hc, m, hm, hs⟩ := h
  have e1 : es1 ++ .seek name b :: es2 = (es1 ++ [.seek name b]) ++ es2 := by simp
  rw [e1] at hnd ho
  have heff := hst.effect name _ e hnd
  rw [ho] at heff
  have hmem : ∃ conn, (c, conn) ∈ (viewAfter crc t name ((es1 ++ [.seek name b]) ++ es2)).members := by
    generalize viewAfter crc t name (((es1 ++ [.seek name b]) ++ es2) ++ [e]) = v' at heff
    cases heff with
    | delivery _ _ _ now' _ hl ha hk he =>
      rw [← hc]
      exact (ha (fun h => by subst h; cases hm)).2
    | other _ _ _ hg =>
      simp only [Out.gives, if_pos hq, List.map_eq_nil_iff] at hg
      rw [hg] at hm; cases hm
    | seek b o hg =>
      simp only [Out.gives, if_pos hq, List.map_eq_nil_iff] at hg
      rw [hg] at hm; cases hm
  obtain ⟨conn, hmem⟩ := hmem
  rcases members_joined hst (es1 ++ [.seek name b]) es2 hnd hmem with h | h
  · rw [seek_members hst] at h; cases h
  · refine ⟨⟨conn, h⟩, fun hc1 => ?_⟩
    rw [joinIds_append] at hnd
    refine (List.nodup_append.1 hnd).2.2 c ?_ c (joinIds_mem h) rfl
    rw [joinIds_append]
    exact List.mem_append_left _ hc1

/-- **C49** After a seek only acknowledgements of consumers that have joined after it are accepted. -/
theorem C49_fenced_ack (es1 es2 : List Ev) (b : Bool) (c : Str) (gen s : Nat)
    (hnd : (joinIds name (es1 ++ .seek name b :: es2)).Nodup)
    (h : ((t.run crc (es1 ++ .seek name b :: es2)).step crc (.ack name c gen s)).2 = .ok) :
    (∃ conn, .join name conn c ∈ es2) ∧ c ∉ joinIds name es1 := by
  have e1 : es1 ++ .seek name b :: es2 = (es1 ++ [.seek name b]) ++ es2 := by simp
  rw [e1] at hnd h
  obtain ⟨_, ⟨conn, hmem⟩, _⟩ := (C48_accepted_iff hst name _ hnd c gen s).1 h
  rcases members_joined hst (es1 ++ [.seek name b]) es2 hnd hmem with h | h
  · rw [seek_members hst] at h; cases h
  · refine ⟨⟨conn, h⟩, fun hc1 => ?_⟩
    rw [joinIds_append] at hnd
    refine (List.nodup_append.1 hnd).2.2 c ?_ c (joinIds_mem h) rfl
    rw [joinIds_append]
    exact List.mem_append_left _ hc1

theorem fate_after_seek (es1 es2 : List Ev) (b : Bool) (hnd : (joinIds name (es1 ++ .seek name b :: es2)).Nodup)
    (hns : NoSeek name es2) (s : Nat) :
    (viewAfter crc t name (es1 ++ .seek name b :: es2)).fate s = .skipped →
      s < if b then (t.run crc es1).log.next else (t.run crc es1).log.head := by
  have e1 : es1 ++ .seek name b :: es2 = (es1 ++ [.seek name b]) ++ es2 := by simp
  rw [e1] at hnd ⊢
  obtain ⟨J, hr, _, _, _⟩ := hst.reach name es1 (joinIds_prefix (joinIds_prefix hnd))
  have key := hist_ind (name := name) hst
    (fun _ v => v.known = true ∧ (v.fate s = .skipped → s < if b then (t.run crc es1).log.next else (t.run crc es1).log.head))
    (fun e => ∀ b, e ≠ .seek name b) ?_ es2 (es1 ++ [.seek name b]) hnd
    (fun e he b hb => hns b (by rw [← hb]; exact he)) ?_
  · exact key.2
  · intro es e v' _ hns ⟨hk, hf⟩ heff
    refine ⟨heff.known hk, fun h => ?_⟩
    by_cases hg : s ∈ ((t.run crc es).step crc e).2.gives name
    · obtain ⟨_, ⟨c, now, h'⟩, _⟩ := heff.gives_legal hg
      rw [h'] at h; cases h
    · rcases heff.keeps hns (.inl hk) hg with h' | ⟨_, _, _, _, _, h'⟩ | ⟨c', t', k', h1, h', _⟩ | ⟨_, _, _, _, h'⟩
      · rw [h'] at h; exact hf h
      · rw [h'] at h; cases h
      · rw [h', h1] at h
        simp only [Fate.release] at h
        split at h <;> cases h
      · rw [h'] at h; cases h
  · rw [viewAfter_snoc]
    simp only [View.step, if_pos]
    refine ⟨trivial, fun h => ?_⟩
    have := fates_restarted t.cfg.maxDeliveries t.cfg.ackWait (viewAfter crc t name es1).fate
      (if b = true then (viewAfter crc t name es1).next else (viewAfter crc t name es1).head) s
    simp only [View.obs, List.foldl_cons, List.foldl_nil] at h
    rw [this, hr.next, hr.head] at h
    revert h
    generalize (if b = true then (t.run crc es1).log.next else (t.run crc es1).log.head) = first
    intro h
    split at h
    · cases h
    · omega

/-- **C49** A seek to the beginning redelivers everything that is retained: after it (and before the next seek), below a
message that has been delivered every message has been delivered since the seek, unless it had been removed before the
seek or was removed since. -/
theorem C49_seek_beginning (es1 es2 : List Ev) (hnd : (joinIds name (es1 ++ .seek name false :: es2)).Nodup)
    (hns : NoSeek name es2) (s s' : Nat) (hlt : s' < s)
    (hs : 0 < sinceSeek name s (t.trace crc (es1 ++ .seek name false :: es2))) :
    0 < sinceSeek name s' (t.trace crc (es1 ++ .seek name false :: es2))
    ∨ s' < (t.run crc es1).log.head
    ∨ (viewAfter crc t name (es1 ++ .seek name false :: es2)).fate s' = .removed := by
  rcases C43_no_gap hst name _ hnd s s' hlt hs with h | h | h
  · exact .inl h
  · exact .inr (.inr h)
  · have := fate_after_seek hst name es1 es2 false hnd hns s' h
    simp only [Bool.false_eq_true, if_false] at this
    exact .inr (.inl this)

/-- **C49** After a seek to the beginning, and before anything is delivered, every retained message is due again. -/
theorem C49_seek_beginning_due (es : List Ev) (hnd : (joinIds name es).Nodup) (g : Group) (s : Nat)
    (hg : mget ((t.run crc es).step crc (.seek name false)).1.groups name = some g) :
    (g.next ≤ s ↔ (t.run crc es).log.head ≤ s) ∧ g.redeliver = [] ∧ g.pending = [] := by
  obtain ⟨J, hr, hi, _, _⟩ := hst.reach name es hnd
  simp only [Topic.step, Topic.seek, mget_mset_same, Option.some.injEq, Bool.false_eq_true, if_false] at hg
  subst hg
  refine ⟨?_, rfl, rfl⟩
  have := hi.log.head1
  simp only [Group.seekBeginning, Group.resetRuntime, Group.invalidate]
  rw [Nat.max_eq_left this]

/-- **C49** After a seek to the end (and before the next seek) only messages published after it are delivered. -/
theorem C49_seek_end (es1 es2 : List Ev) (e : Ev) (hnd : (joinIds name (es1 ++ .seek name true :: es2)).Nodup)
    (hns : NoSeek name es2) (s : Nat) (hs : s ∈ given crc t name (es1 ++ .seek name true :: es2) e) :
    (t.run crc es1).log.next ≤ s := by
  have e1 : es1 ++ .seek name true :: es2 = (es1 ++ [.seek name true]) ++ es2 := by simp
  rw [e1] at hnd hs
  obtain ⟨J, hr, _, _, _⟩ := hst.reach name es1 (joinIds_prefix (joinIds_prefix hnd))
  apply Nat.le_of_not_lt
  intro hlt
  have key := hist_ind (name := name) hst
    (fun _ v => v.known = true ∧ (v.fate s = .skipped ∨ v.fate s = .removed))
    (fun e => ∀ b, e ≠ .seek name b) ?_ es2 (es1 ++ [.seek name true]) hnd
    (fun e he b hb => hns b (by rw [← hb]; exact he)) ?_
  · have heff := hst.effect name _ e hnd
    have := (heff.gives_legal hs).1
    rcases key.2 with hf | hf <;> rw [hf] at this <;> rcases this with h | ⟨_, h, _⟩ <;> cases h
  · intro es e v' _ hns ⟨hk, hf⟩ heff
    refine ⟨heff.known hk, ?_⟩
    have hng : s ∉ ((t.run crc es).step crc e).2.gives name := by
      intro hg
      have := (heff.gives_legal hg).1
      rcases hf with hf | hf <;> rw [hf] at this <;> rcases this with h | ⟨_, h, _⟩ <;> cases h
    rcases heff.keeps hns (.inl hk) hng with h | ⟨_, _, _, _, ⟨_, _, _, h⟩, _⟩ | ⟨c', t', k', h, _, _⟩ | ⟨_, _, _, _, h⟩
    · rw [h]; exact hf
    · rcases hf with hf | hf <;> rw [hf] at h <;> cases h
    · rcases hf with hf | hf <;> rw [hf] at h <;> cases h
    · exact .inr h
  · rw [viewAfter_snoc]
    simp only [View.step, if_pos]
    refine ⟨trivial, .inl ?_⟩
    have := fates_restarted t.cfg.maxDeliveries t.cfg.ackWait (viewAfter crc t name es1).fate
      (viewAfter crc t name es1).next s
    simp only [View.obs, List.foldl_cons, List.foldl_nil]
    rw [this, hr.next, if_neg (by omega)]

omit hst in
/-- A fetch in progress at the time of the seek gets nothing; a new consumer gets everything again. -/
example : ((Ex.t0.run Ex.crc (Ex.es1 ++ [.fetch Ex.g Ex.c2 1 5 false, .seek Ex.g false])).step Ex.crc (.attempt 1 101)).2
      = .fetched ⟨Ex.g, Ex.c2, 1, 5⟩ (.error .fenced)
    ∧ given Ex.crc Ex.t0 Ex.g (Ex.es1 ++ .seek Ex.g false :: [.join Ex.g Ex.k2 [3], .fetch Ex.g [3] 2 5 false])
        (.attempt 1 101) = [1, 2, 3]
    ∧ given Ex.crc Ex.t0 Ex.g (Ex.es1 ++ .seek Ex.g true ::
        [.join Ex.g Ex.k2 [3], .publish 7 [4], .fetch Ex.g [3] 2 5 false]) (.attempt 1 101) = [4] := ⟨rfl, by decide, by decide⟩

end

end Verif.Stream
