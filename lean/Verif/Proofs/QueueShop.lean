import Verif.Spec.QueueShop
import Verif.Proofs.QueueRpc2

/-!
# The queues behind the network are one object
-/

namespace Verif.Rpc

open Verif Verif.Wire Verif.Sdk
open Verif.Queue (Config Op MEvent Mgr life lifeStep opsOn Fresh pushIds QInner)

variable {E I : Type} {cfg : Config} {batch : Nat} {supply : Nat → Queue.Id} {bg : I → Option MEvent} {A : List (Act I)}

/-- The queue of the specification after a life. -/
def standOf (x : Config × List Op) : Stand :=
  ⟨x.1.visibilityTimeout, x.1.maxRetries,
    (Spec.Queue.run x.1.visibilityTimeout x.1.maxRetries lateReason .empty (x.2.map Op.req)).1⟩

theorem spec_run_append (vt mr : Nat) (rs : Str) (a b : List Spec.Queue.Req) : ∀ q : Spec.Queue.Q,
    (Spec.Queue.run vt mr rs q (a ++ b)).1 = (Spec.Queue.run vt mr rs (Spec.Queue.run vt mr rs q a).1 b).1 := by
  induction a with
  | nil => intro q; rfl
  | cons o a ih => intro q; simp only [List.cons_append, Spec.Queue.run]; exact ih _

theorem huge_ok (o : Op) : huge o.req = true ↔ ¬ o.ok := by
  cases o <;> simp [huge, Op.req, Op.ok, Queue.msgSize, Queue.isizeMax]
  omega

theorem stand_ask {s : Shop} {f : Str → Option (Config × List Op)} (hs : ∀ n, s n = (f n).map standOf) (q : Str) (o : Op) (n : Str) :
    (s.ask q o.req).1 n = (lifeStep cfg n (f n) (.op q o)).map standOf := by
  unfold Shop.ask
  simp only [lifeStep]
  cases hf : f q with
  | none =>
    rw [hs q, hf]
    simp only [Option.map_none]
    rw [hs n]
    split
    · next h => rw [← h.1, hf]; rfl
    · rfl
  | some x =>
    rw [hs q, hf]
    simp only [Option.map_some]
    by_cases hk : o.ok
    · have hh : huge o.req = false := by
        cases h : huge o.req with
        | false => rfl
        | true => exact absurd hk ((huge_ok o).1 h)
      rw [hh]
      simp only [Bool.false_eq_true, if_false, Shop.set]
      by_cases hn : n = q
      · subst hn
        rw [if_pos rfl, if_pos ⟨rfl, hk⟩, hf]
        simp only [Option.map_some, standOf, List.map_append, List.map_cons, List.map_nil]
        rw [spec_run_append]
        rfl
      · rw [if_neg hn, if_neg (fun h => hn h.1.symm), hs n]
    · rw [if_pos ((huge_ok o).2 hk), if_neg (fun h => hk h.2)]
      exact hs n

theorem lateReason_eq : lateReason = Queue.timeoutReason := rfl

/-- The specification's queues after some acts are those of the lives. -/
theorem shop_life (ht : ∀ x ev, bg x = some ev → (∃ n k, ev = .commit n k) ∨ ∃ n t t', ev = .op n (.tick t t')) (u : List (Act I)) :
    (shopAfter cfg.visibilityTimeout cfg.maxRetries batch supply bg u).2 = u.countP isPush ∧
    ∀ n, (shopAfter cfg.visibilityTimeout cfg.maxRetries batch supply bg u).1 n = (life cfg n (events batch supply bg 0 u)).map standOf := by
  induction u using Sdk.snoc_ind with
  | h0 => exact ⟨rfl, fun n => rfl⟩
  | h1 u a ih =>
    obtain ⟨i1, i2⟩ := ih
    have hst : shopAfter cfg.visibilityTimeout cfg.maxRetries batch supply bg (u ++ [a]) =
        shopStep cfg.visibilityTimeout cfg.maxRetries batch supply bg (shopAfter cfg.visibilityTimeout cfg.maxRetries batch supply bg u) a := by
      simp [shopAfter]
    have hev : ∀ n, life cfg n (events batch supply bg 0 (u ++ [a])) =
        (eventOf batch supply bg (u.countP isPush) a).toList.foldl (lifeStep cfg n) (life cfg n (events batch supply bg 0 u)) := by
      intro n
      rw [events_append, life_append, Nat.zero_add]
      simp only [events, List.append_nil]
    rw [hst]
    generalize shopAfter cfg.visibilityTimeout cfg.maxRetries batch supply bg u = s at i1 i2
    obtain ⟨s, k⟩ := s
    simp only at i1 i2
    subst i1
    cases a with
    | ticked x =>
      constructor
      · simp only [shopStep, List.countP_append, List.countP_cons, isPush]
        split <;> simp
      · intro n
        rw [hev]
        simp only [eventOf, shopStep]
        cases hb : bg x with
        | none => simpa using i2 n
        | some ev =>
          rcases ht x ev hb with ⟨m, j, rfl⟩ | ⟨m, t, t', rfl⟩
          · exact i2 n
          · exact stand_ask (cfg := cfg) i2 m (.tick t t') n
    | did l cmd now r =>
      constructor
      · simp only [shopStep, List.countP_append, List.countP_cons, List.countP_nil, Nat.zero_add]
      · intro n
        rw [hev]
        simp only [eventOf, shopStep]
        have hask := fun q (o : Op) => stand_ask (cfg := cfg) i2 q o n
        cases cmd
        case qCreate q opts =>
          simp only [queueCall, Option.toList, List.foldl_cons, List.foldl_nil, Shop.serve, lifeStep]
          by_cases hn : q = n
          · subst hn
            rw [if_pos rfl]
            cases hl : life cfg q (events batch supply bg 0 u) with
            | none =>
              have := i2 q; rw [hl] at this
              rw [this]
              simp [Shop.set, standOf, Config.fromOptions, Spec.Queue.run]
            | some x =>
              have := i2 q; rw [hl] at this
              rw [this]
              simp only [Option.map_some, Option.isSome_some, if_true]
              exact this
          · rw [if_neg hn, ← i2 n]
            split
            · rfl
            · simp only [Shop.set]; rw [if_neg (fun h => hn h.symm)]
        case qDelete q =>
          simp only [queueCall, Option.toList, List.foldl_cons, List.foldl_nil, Shop.serve, lifeStep, Shop.set]
          by_cases hn : q = n
          · subst hn; rw [if_pos rfl, if_pos rfl]; rfl
          · rw [if_neg hn, if_neg (fun h => hn h.symm), i2 n]
        case qPush q opts pl => exact hask q (.push (supply (u.countP isPush)) pl (opts.priority.getD 0) now)
        case qConsume q opts => exact hask q (.consume (opts.batchSize.getD batch) now)
        case qAck id q => exact hask q (.ack (beVal id))
        case qNack id q reason => exact hask q (.nack (beVal id) reason now)
        case qPeek q limit offset => exact hask q (.peekDlq limit offset)
        case qMove q id => exact hask q (.moveToQueue (beVal id))
        case qDelDlq q id => exact hask q (.deleteDlq (beVal id))
        case qPurge q => exact hask q .purgeDlq
        all_goals exact i2 n

/-! ### Pages on the wire -/

theorem readDead_wire (msgs : List DlqItem) (hm : ∀ m ∈ msgs, m.id.length = 16 ∧ m.payload.length < 2 ^ 32 ∧ m.reason.length < 2 ^ 32) :
    readDead msgs.length (msgs.flatMap (fun m => m.id ++ be32 m.payload.length ++ m.payload ++ be32 m.attempts ++ be32 m.reason.length ++ m.reason)) =
      msgs.map (fun m => (m.id, m.payload, m.attempts % 2 ^ 32, m.reason)) := by
  induction msgs with
  | nil => rfl
  | cons m t ih =>
    obtain ⟨h1, h2, h3⟩ := hm m (List.mem_cons_self ..)
    simp only [List.length_cons, readDead, List.flatMap_cons, List.map_cons]
    generalize hr : t.flatMap (fun m => m.id ++ be32 m.payload.length ++ m.payload ++ be32 m.attempts ++ be32 m.reason.length ++ m.reason) = rest at ih
    have ih := ih (fun m hm' => hm m (List.mem_cons_of_mem _ hm'))
    have e0 : m.id ++ be32 m.payload.length ++ m.payload ++ be32 m.attempts ++ be32 m.reason.length ++ m.reason ++ rest =
        m.id ++ (be32 m.payload.length ++ (m.payload ++ (be32 m.attempts ++ (be32 m.reason.length ++ (m.reason ++ rest))))) := by
      simp only [List.append_assoc]
    rw [e0]
    generalize hc : be32 m.attempts ++ (be32 m.reason.length ++ (m.reason ++ rest)) = c
    have hk : ((m.id ++ (be32 m.payload.length ++ (m.payload ++ c))).drop 16).take 4 = be32 m.payload.length := by
      rw [← h1, List.drop_left, ← be32_length m.payload.length, List.take_left]
    have hd : (m.id ++ (be32 m.payload.length ++ (m.payload ++ c))).drop 20 = m.payload ++ c := by
      have h20 : (m.id ++ be32 m.payload.length).length = 20 := by simp [h1, be32_length]
      rw [← List.append_assoc, ← h20, List.drop_left]
    have ht : (m.id ++ (be32 m.payload.length ++ (m.payload ++ c))).take 16 = m.id := by
      rw [← h1, List.take_left]
    rw [hk, beVal_be32_lt h2, ← List.drop_drop, hd, ht, List.take_left, List.drop_left]
    have c1 : c.take 4 = be32 m.attempts := by rw [← hc, ← be32_length m.attempts, List.take_left]
    have c2 : (c.drop 4).take 4 = be32 m.reason.length := by
      rw [← hc, show 4 = (be32 m.attempts).length from (be32_length _).symm, List.drop_left, be32_length, ← be32_length m.reason.length, List.take_left]
    have c3 : c.drop 8 = m.reason ++ rest := by
      have h8 : (be32 m.attempts ++ be32 m.reason.length).length = 8 := by simp [be32_length]
      rw [← hc, ← List.append_assoc, ← h8, List.drop_left]
    rw [c1, c2, beVal_be32_lt h3, ← List.drop_drop, c3, List.take_left, List.drop_left, ih, beVal_be32]

theorem page_length (total : Nat) (msgs : List DlqItem) :
    msgs.length ≤ (wirePeek total msgs).length ∧ ∀ m ∈ msgs, m.payload.length ≤ (wirePeek total msgs).length ∧ m.reason.length ≤ (wirePeek total msgs).length := by
  unfold wirePeek
  rw [List.length_append]
  have : msgs.length ≤ (msgs.flatMap (fun m => m.id ++ be32 m.payload.length ++ m.payload ++ be32 m.attempts ++ be32 m.reason.length ++ m.reason)).length ∧
      ∀ m ∈ msgs,
        m.payload.length ≤ (msgs.flatMap (fun m => m.id ++ be32 m.payload.length ++ m.payload ++ be32 m.attempts ++ be32 m.reason.length ++ m.reason)).length ∧
        m.reason.length ≤ (msgs.flatMap (fun m => m.id ++ be32 m.payload.length ++ m.payload ++ be32 m.attempts ++ be32 m.reason.length ++ m.reason)).length := by
    induction msgs with
    | nil => simp
    | cons m t ih =>
      obtain ⟨i1, i2⟩ := ih
      simp only [List.flatMap_cons, List.length_append, List.length_cons, be32_length]
      refine ⟨by omega, ?_⟩
      intro x hx
      rcases List.mem_cons.1 hx with rfl | hx
      · constructor <;> omega
      · have := i2 x hx; constructor <;> omega
  obtain ⟨h1, h2⟩ := this
  exact ⟨by omega, fun m hm => by have := h2 m hm; constructor <;> omega⟩

theorem readPage_wire {total : Nat} {msgs : List DlqItem} (hm : ∀ m ∈ msgs, m.id.length = 16) (hl : (wirePeek total msgs).length < 2 ^ 32) :
    readPage (wirePeek total msgs) = (total % 2 ^ 32, msgs.map (fun m => (m.id, m.payload, m.attempts % 2 ^ 32, m.reason))) := by
  obtain ⟨h1, h2⟩ := page_length total msgs
  have hr := readDead_wire msgs (fun m hx => ⟨hm m hx, by have := h2 m hx; omega, by have := h2 m hx; omega⟩)
  unfold readPage wirePeek
  generalize msgs.flatMap (fun m => m.id ++ be32 m.payload.length ++ m.payload ++ be32 m.attempts ++ be32 m.reason.length ++ m.reason) = rest at hr
  have e1 : (be32 total ++ be32 msgs.length ++ rest).take 4 = be32 total := by
    rw [List.append_assoc, ← be32_length total, List.take_left]
  have e2 : ((be32 total ++ be32 msgs.length ++ rest).drop 4).take 4 = be32 msgs.length := by
    rw [List.append_assoc, show 4 = (be32 total).length from (be32_length _).symm, List.drop_left, be32_length, ← be32_length msgs.length, List.take_left]
  have e3 : (be32 total ++ be32 msgs.length ++ rest).drop 8 = rest := by
    have h8 : (be32 total ++ be32 msgs.length).length = 8 := by simp [be32_length]
    rw [← h8, List.drop_left]
  rw [e1, e2, e3, beVal_be32_lt (v := msgs.length) (by omega), hr, beVal_be32]

/-! ### Answers -/

/-- The answer of a queue is the specification's. -/
theorem Told.spec_ans (h : Told cfg batch supply bg A) {u w : List (Act I)} (hs : A = u ++ w) {q : Str} {x : Config × List Op}
    (hx : life cfg q (events batch supply bg 0 u) = some x) {o : Op} (hok : o.ok) (hp : o.pushId = []) :
    (Queue.step (Queue.run (QInner.empty x.1) x.2).1 o).2.1.ans =
      some (Spec.Queue.step (standOf x).vt (standOf x).maxRetries lateReason (standOf x).q o.req).2 := by
  have hf := h.fresh hs hx
  obtain ⟨h1, _, h3⟩ := (Queue.RQ.init x.1 (· ∈ ([] : List Queue.Id))).runU hf
  have h2 := (h1.stepU hok (by rw [hp]; simp)).2.1
  rw [h2, h3]
  rfl

theorem life_exists (h : Told cfg batch supply bg A) {u : List (Act I)} (q : Str) :
    mhas (Mgr.new.run cfg (events batch supply bg 0 u)).1.live q = (life cfg q (events batch supply bg 0 u)).isSome := by
  have h1 := (Queue.lives_run cfg q (events batch supply bg 0 u) (fun now => no_restart h.tasks 0 u now)).1
  unfold mhas
  cases hl : life cfg q (events batch supply bg 0 u) with
  | none =>
    rw [hl] at h1
    cases hm : mget (Mgr.new.run cfg (events batch supply bg 0 u)).1.live q with
    | none => rfl
    | some _ => rw [hm] at h1; cases h1
  | some x =>
    rw [hl] at h1
    cases hm : mget (Mgr.new.run cfg (events batch supply bg 0 u)).1.live q with
    | none => rw [hm] at h1; cases h1
    | some _ => rfl

/-- Every queue command is answered with the outcome on the queues as they are after the acts before it. -/
theorem Told.tells (h : Told cfg batch supply bg A) {u w : List (Act I)} {l now : Nat} {cmd : Cmd} {r : Option Response}
    (hs : A = u ++ .did l cmd now r :: w) (hq : isQueue cmd = true) :
    tells cmd (outcome cfg.visibilityTimeout cfg.maxRetries batch supply bg u now cmd) r := by
  obtain ⟨hx, hfit, hd⟩ := h.exec u l cmd now r w hs hq
  clear hfit
  obtain ⟨hk, hl⟩ := shop_life (cfg := cfg) (batch := batch) (supply := supply) h.tasks u
  unfold outcome
  dsimp only
  rw [hk]
  generalize (shopAfter cfg.visibilityTimeout cfg.maxRetries batch supply bg u).1 = s at hl
  have hop := fun {q : Str} {o : Op} => h.answer hs (q := q) (o := o)
  have hsp := fun {q : Str} {x : Config × List Op} => h.spec_ans hs (q := q) (x := x)
  cases cmd <;> try cases hq
  case qCreate q opts =>
    rw [hx]; rfl
  case qDelete q =>
    rw [hx]; rfl
  case qExists q =>
    rw [hx]
    simp only [queueExec, queueCall, Mgr.step, Shop.serve, Rpc.tells]
    rw [life_exists h, hl q, Option.isSome_map]
    cases (life cfg q (events batch supply bg 0 u)).isSome
    · exact ⟨_, rfl⟩
    · rfl
  case qPush q opts pl =>
    have h1 := hop (q := q) (o := .push (supply (u.countP isPush)) pl (opts.priority.getD 0) now) rfl
    simp only [Shop.serve, asked, Shop.ask]
    rw [hl q]
    cases hf : life cfg q (events batch supply bg 0 u) with
    | none => rw [hf] at h1; rw [h1]; exact ⟨_, rfl⟩
    | some x => rw [hf] at h1; rw [h1]; rfl
  case qConsume q opts =>
    simp only [Shop.serve, asked, Shop.ask]
    rw [hl q]
    have h1 := hop (q := q) (o := .consume (opts.batchSize.getD batch) now) rfl
    cases hf : life cfg q (events batch supply bg 0 u) with
    | none => rw [hf] at h1; rw [h1]; exact ⟨_, rfl⟩
    | some x =>
      rcases h.consume hs with ⟨_, k | ⟨k1, k2⟩⟩ | ⟨y, msgs, k1, k2, k3, k4, k5⟩
      · rw [hf] at k; cases k
      · have : huge (.consume (opts.batchSize.getD batch) now) = true := (huge_ok (.consume (opts.batchSize.getD batch) now)).2 k1
        simp only [Option.map_some, this, if_true]
        exact k2
      · rw [hf] at k1; injection k1 with k1; subst k1
        have : ¬ huge (.consume (opts.batchSize.getD batch) now) = true := fun hh => (huge_ok (.consume (opts.batchSize.getD batch) now)).1 hh k2
        simp only [Option.map_some, if_neg this]
        have h3 := hsp hf (o := .consume (opts.batchSize.getD batch) now) k2 rfl
        rw [k3] at h3
        simp only [Queue.Out.ans, Option.some.injEq, Op.req] at h3
        rw [← h3]
        refine ⟨⟨_, k5⟩, ?_⟩
        rw [k4, List.map_map]
        rfl
  case qAck i q =>
    simp only [Shop.serve, asked, Shop.ask]
    rw [hl q]
    have h1 := hop (q := q) (o := .ack (beVal i)) rfl
    cases hf : life cfg q (events batch supply bg 0 u) with
    | none => rw [hf] at h1; rw [h1]; exact ⟨_, rfl⟩
    | some x =>
      rw [hf] at h1
      dsimp only at h1
      have h3 := hsp hf (o := .ack (beVal i)) trivial rfl
      simp only [Option.map_some, show huge (.ack (beVal i)) = false from rfl, Bool.false_eq_true, if_false]
      generalize (Queue.step (Queue.run (QInner.empty x.1) x.2).1 (.ack (beVal i))).2.1 = out at h3 h1
      rw [h1]
      simp only [Op.req] at h3
      simp only [Spec.Queue.step] at h3 ⊢
      cases out <;> simp only [Queue.Out.ans, Option.some.injEq, reduceCtorEq, Spec.Queue.Ans.bool.injEq] at h3
      next b =>
        rw [← h3]
        cases b
        · exact ⟨_, rfl⟩
        · rfl
  case qNack i q reason =>
    simp only [Shop.serve, asked, Shop.ask]
    rw [hl q]
    have h1 := hop (q := q) (o := .nack (beVal i) reason now) rfl
    cases hf : life cfg q (events batch supply bg 0 u) with
    | none => rw [hf] at h1; rw [h1]; exact ⟨_, rfl⟩
    | some x =>
      rw [hf] at h1
      dsimp only at h1
      have h3 := hsp hf (o := .nack (beVal i) reason now) trivial rfl
      simp only [Option.map_some, show huge (.nack (beVal i) reason now) = false from rfl, Bool.false_eq_true, if_false]
      generalize (Queue.step (Queue.run (QInner.empty x.1) x.2).1 (.nack (beVal i) reason now)).2.1 = out at h3 h1
      rw [h1]
      simp only [Op.req] at h3
      simp only [Spec.Queue.step] at h3 ⊢
      cases out <;> simp only [Queue.Out.ans, Option.some.injEq, reduceCtorEq, Spec.Queue.Ans.bool.injEq] at h3
      next b =>
        rw [← h3]
        cases b
        · exact ⟨_, rfl⟩
        · rfl
  case qPeek q limit offset =>
    simp only [Shop.serve, asked, Shop.ask]
    rw [hl q]
    have h1 := hop (q := q) (o := .peekDlq limit offset) rfl
    cases hf : life cfg q (events batch supply bg 0 u) with
    | none => rw [hf] at h1; rw [h1]; exact ⟨_, rfl⟩
    | some x =>
      rw [hf] at h1
      dsimp only at h1
      have h3 := hsp hf (o := .peekDlq limit offset) trivial rfl
      simp only [Option.map_some, show huge (.peekDlq limit offset) = false from rfl, Bool.false_eq_true, if_false]
      generalize (Queue.step (Queue.run (QInner.empty x.1) x.2).1 (.peekDlq limit offset)).2.1 = out at h3 h1
      simp only [Op.req] at h3
      simp only [Spec.Queue.step] at h3 ⊢
      cases out <;> simp only [Queue.Out.ans, Option.some.injEq, reduceCtorEq, Spec.Queue.Ans.page.injEq] at h3
      next total l =>
        rw [← h3.1, ← h3.2]
        simp only [queueAnswer] at h1
        refine ⟨_, h1, ?_⟩
        rw [readPage_wire (by intro m hm; obtain ⟨y, _, rfl⟩ := List.mem_map.1 hm; exact uuid_length _) (hd _ h1), List.map_map, List.map_map]
        rfl
  case qMove q i =>
    simp only [Shop.serve, asked, Shop.ask]
    rw [hl q]
    have h1 := hop (q := q) (o := .moveToQueue (beVal i)) rfl
    cases hf : life cfg q (events batch supply bg 0 u) with
    | none => rw [hf] at h1; rw [h1]; exact ⟨_, rfl⟩
    | some x =>
      rw [hf] at h1
      dsimp only at h1
      have h3 := hsp hf (o := .moveToQueue (beVal i)) trivial rfl
      simp only [Option.map_some, show huge (.moveToQueue (beVal i)) = false from rfl, Bool.false_eq_true, if_false]
      generalize (Queue.step (Queue.run (QInner.empty x.1) x.2).1 (.moveToQueue (beVal i))).2.1 = out at h3 h1
      rw [h1]
      simp only [Op.req] at h3
      simp only [Spec.Queue.step] at h3 ⊢
      cases out <;> simp only [Queue.Out.ans, Option.some.injEq, reduceCtorEq, Spec.Queue.Ans.bool.injEq] at h3
      next b => rw [← h3]; rfl
  case qDelDlq q i =>
    simp only [Shop.serve, asked, Shop.ask]
    rw [hl q]
    have h1 := hop (q := q) (o := .deleteDlq (beVal i)) rfl
    cases hf : life cfg q (events batch supply bg 0 u) with
    | none => rw [hf] at h1; rw [h1]; exact ⟨_, rfl⟩
    | some x =>
      rw [hf] at h1
      dsimp only at h1
      have h3 := hsp hf (o := .deleteDlq (beVal i)) trivial rfl
      simp only [Option.map_some, show huge (.deleteDlq (beVal i)) = false from rfl, Bool.false_eq_true, if_false]
      generalize (Queue.step (Queue.run (QInner.empty x.1) x.2).1 (.deleteDlq (beVal i))).2.1 = out at h3 h1
      rw [h1]
      simp only [Op.req] at h3
      simp only [Spec.Queue.step] at h3 ⊢
      cases out <;> simp only [Queue.Out.ans, Option.some.injEq, reduceCtorEq, Spec.Queue.Ans.bool.injEq] at h3
      next b => rw [← h3]; rfl
  case qPurge q =>
    simp only [Shop.serve, asked, Shop.ask]
    rw [hl q]
    have h1 := hop (q := q) (o := .purgeDlq) rfl
    cases hf : life cfg q (events batch supply bg 0 u) with
    | none => rw [hf] at h1; rw [h1]; exact ⟨_, rfl⟩
    | some x =>
      rw [hf] at h1
      dsimp only at h1
      have h3 := hsp hf (o := .purgeDlq) trivial rfl
      simp only [Option.map_some, show huge .purgeDlq = false from rfl, Bool.false_eq_true, if_false]
      generalize (Queue.step (Queue.run (QInner.empty x.1) x.2).1 .purgeDlq).2.1 = out at h3 h1
      rw [h1]
      simp only [Op.req] at h3
      simp only [Spec.Queue.step] at h3 ⊢
      cases out <;> simp only [Queue.Out.ans, Option.some.injEq, reduceCtorEq, Spec.Queue.Ans.count.injEq] at h3
      next n => rw [← h3]; exact ⟨_, rfl, be32_length n, beVal_be32 n⟩

end Verif.Rpc
