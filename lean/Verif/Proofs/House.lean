import Verif.Spec.House
import Verif.Proofs.StoreRpc
import Verif.Props.Engine
import Verif.Props.QueueShop
import Verif.Props.StreamDesk

/-!
# Lemmas about the whole server as one sequential object
-/

namespace Verif.Rpc

open Verif Verif.Wire Verif.Sdk

variable {E I : Type}

/-! ### Histories -/

/-- The engine after the acts. -/
def engineAfter (exec : Nat → Nat → Cmd → E → E × Option Response) (tick : I → E → E) : E → List (Act I) → E
  | e, [] => e
  | e, .did l cmd now _ :: A => engineAfter exec tick (exec l now cmd e).1 A
  | e, .ticked x :: A => engineAfter exec tick (tick x e) A

theorem engineAfter_append (exec : Nat → Nat → Cmd → E → E × Option Response) (tick : I → E → E) (A B : List (Act I)) (e : E) :
    engineAfter exec tick e (A ++ B) = engineAfter exec tick (engineAfter exec tick e A) B := by
  induction A generalizing e with
  | nil => rfl
  | cons a A ih => cases a <;> exact ih _

/-- The answers in a history are those of the engine at that moment. -/
theorem History.answer {exec : Nat → Nat → Cmd → E → E × Option Response} {tick : I → E → E} {u w : List (Act I)} {l now : Nat} {cmd : Cmd}
    {r : Option Response} : ∀ {e : E}, History exec tick e (u ++ .did l cmd now r :: w) → (exec l now cmd (engineAfter exec tick e u)).2 = r := by
  induction u with
  | nil => intro e h; exact h.1
  | cons a u ih =>
    intro e h
    cases a with
    | did l' cmd' now' r' => exact ih h.2
    | ticked x => exact ih h

/-! ### The store -/

/-- The map has what is on the shelf. -/
def OnShelf (m : Store.Map) (S : Shelf) : Prop := ∀ k, mget m k = (S k).map (fun x => ⟨x.1, some x.2⟩)

theorem OnShelf.put {m : Store.Map} {S : Shelf} (h : OnShelf m S) (k : Str) (v : Bytes) (t : Nat) :
    OnShelf (mset m k ⟨v, some t⟩) (S.put k (some (v, t))) := by
  intro k'
  rw [mget_mset]
  unfold Shelf.put
  split
  · rfl
  · exact h k'

theorem OnShelf.del {m : Store.Map} {S : Shelf} (h : OnShelf m S) (k : Str) : OnShelf (mdel m k) (S.put k none) := by
  intro k'
  rw [mget_mdel]
  unfold Shelf.put
  split
  · rfl
  · exact h k'

theorem OnShelf.exec {m : Store.Map} {S : Shelf} (h : OnShelf m S) (dflt now : Nat) {cmd : Cmd} (hc : isStore cmd = true) :
    OnShelf (storeExec dflt now cmd m).1 (S.serve dflt now cmd).1 ∧ (storeExec dflt now cmd m).2 = (S.serve dflt now cmd).2 := by
  cases cmd with
  | mapSet k opts v =>
    simp only [storeExec, Shelf.serve, Store.set_eq]
    by_cases hr : Store.representable (Store.expiry dflt opts.ttl now) = true
    · simp only [hr, if_true]; exact ⟨h.put _ _ _, trivial⟩
    · rw [if_neg hr, if_neg hr]; exact ⟨h, rfl⟩
  | mapGet k =>
    simp only [storeExec, Shelf.serve, Store.get, h k]
    cases S k with
    | none => exact ⟨h, rfl⟩
    | some x =>
      obtain ⟨v, t⟩ := x
      simp only [Option.map_some]
      by_cases ht : t < now
      · simp only [gt_iff_lt, ht, if_true]; exact ⟨h, trivial⟩
      · simp only [gt_iff_lt, ht, if_false]; exact ⟨h, trivial⟩
  | mapDel k => exact ⟨h.del k, rfl⟩
  | _ => cases hc

theorem OnShelf.clean {m : Store.Map} {S : Shelf} (h : OnShelf m S) (k : Str) (now : Nat) : OnShelf (Store.sweep m k now) (S.clean k now) := by
  unfold Store.sweep Shelf.clean
  rw [h k]
  cases S k with
  | none => exact h
  | some x =>
    obtain ⟨v, t⟩ := x
    have hk : Store.keeps now ⟨v, some t⟩ = decide (t > now) := rfl
    simp only [Option.map_some, hk]
    by_cases ht : t ≤ now
    · have hn : decide (t > now) = false := by simpa using ht
      simp only [hn, ht, if_true]
      exact h.del k
    · have hn : decide (t > now) = true := by simpa using ht
      simp only [hn, ht, if_true, if_false]
      exact h

theorem serve_other {cmd : Cmd} (h : isStore cmd = false) (dflt now : Nat) (S : Shelf) : (S.serve dflt now cmd).1 = S := by
  cases cmd <;> first | rfl | cases h

/-- The store after the acts. -/
theorem shelf_after {srv : Server E I} {dflt : Nat} {st : E → Store.Map} {sw : I → Option (Str × Nat)} (hp : StorePart srv dflt st sw) {e0 : E}
    (h0 : st e0 = []) (u : List (Act I)) : OnShelf (st (engineAfter srv.exec srv.tick e0 u)) (shelfAfter dflt sw u) := by
  induction u using Sdk.snoc_ind with
  | h0 => intro k; simp only [engineAfter, h0]; rfl
  | h1 u a ih =>
    rw [engineAfter_append, shelfAfter, List.foldl_append]
    cases a with
    | did l cmd now r =>
      simp only [engineAfter, List.foldl_cons, List.foldl_nil, shelfStep]
      by_cases hc : isStore cmd = true
      · have := hp.exec l now cmd (engineAfter srv.exec srv.tick e0 u) hc
        have h1 : st (srv.exec l now cmd (engineAfter srv.exec srv.tick e0 u)).1 = _ := congrArg Prod.fst this
        rw [h1]
        exact (ih.exec dflt now hc).1
      · have hc' : isStore cmd = false := by simpa using hc
        rw [hp.other l now cmd _ hc', serve_other hc']
        exact ih
    | ticked x =>
      simp only [engineAfter, List.foldl_cons, List.foldl_nil, shelfStep, hp.tick]
      cases sw x with
      | some k => exact ih.clean _ _
      | none => exact ih

/-- The answers of the store. -/
theorem shelf_answer {srv : Server E I} {dflt : Nat} {st : E → Store.Map} {sw : I → Option (Str × Nat)} (hp : StorePart srv dflt st sw) {e0 : E}
    (h0 : st e0 = []) {u w : List (Act I)} {l now : Nat} {cmd : Cmd} {r : Option Response}
    (h : History srv.exec srv.tick e0 (u ++ .did l cmd now r :: w)) (hc : isStore cmd = true) :
    ((shelfAfter dflt sw u).serve dflt now cmd).2 = r := by
  rw [← h.answer, ← ((shelf_after hp h0 u).exec dflt now hc).2]
  exact (congrArg Prod.snd (hp.exec l now cmd _ hc)).symm

/-! ### Publish/subscribe -/

theorem publish_fails (dflt : Nat) (s : PubSub.State) (t : Str) (d : Bytes) (keep : Bool) (ttl : Option Nat) (now unix : Nat) :
    (PubSub.publish dflt s t d keep ttl now unix).2.panicked = !PubSub.reachesRouting dflt d keep ttl now := by
  cases hx : PubSub.reachesRouting dflt d keep ttl now with
  | true =>
    obtain ⟨s', h1, _, _⟩ := PubSub.publish_eq (s := s) (topic := t) (unixNow := unix) hx
    rw [h1]; simp [PubSub.deliver]
  | false => rw [PubSub.publish_panics hx]; simp

theorem hub_answers {env : HubEnv} {l now : Nat} {cmd : Cmd} (hc : isPubSub cmd = true) (h : Hub) :
    (hubExec env l now cmd h).2 = hubAnswer env.dflt now cmd := by
  cases cmd with
  | publish topic opts payload =>
    simp only [hubExec, hubCall, PubSub.step, publish_fails, hubAnswer, PubSub.reachesRouting, Option.getD_some]
    generalize PubSub.representable now (opts.ttl.getD env.dflt) = b
    generalize opts.retain = k
    rcases k with _ | k
    · simp
    · cases k <;> cases payload <;> cases b <;> simp
  | subscribe p =>
    have : (PubSub.subscribe h.st l p (env.order h.steps) now).2.panicked = false := by
      unfold PubSub.subscribe; split <;> rfl
    simp [hubExec, hubCall, PubSub.step, hubAnswer, this]
  | unsubscribe p => simp [hubExec, hubCall, PubSub.step, hubAnswer]
  | _ => cases hc

/-! ### The parts -/

theorem topicTask_eq : topicTask = engineStream := by
  funext x
  cases x <;> rfl

theorem broker_store {cmd : Cmd} : isStore cmd = true ↔ Cmd.broker cmd = .store := by cases cmd <;> simp [isStore, isQueue, isStream, isPubSub, Cmd.broker, Cmd.opcode]

theorem broker_queue {cmd : Cmd} : isQueue cmd = true ↔ Cmd.broker cmd = .queue := by cases cmd <;> simp [isStore, isQueue, isStream, isPubSub, Cmd.broker, Cmd.opcode]

theorem broker_stream {cmd : Cmd} : isStream cmd = true ↔ Cmd.broker cmd = .stream := by cases cmd <;> simp [isStore, isQueue, isStream, isPubSub, Cmd.broker, Cmd.opcode]

theorem broker_pubsub {cmd : Cmd} : isPubSub cmd = true ↔ Cmd.broker cmd = .pubsub := by cases cmd <;> simp [isStore, isQueue, isStream, isPubSub, Cmd.broker, Cmd.opcode]

theorem onTopic_stream {cmd : Cmd} {n : Str} (h : onTopic cmd = some n) : isStream cmd = true := by
  cases cmd <;> first | rfl | cases h

/-- Commands of other brokers leave the topics alone. -/
theorem LStep.apart {env : Env} {bg : I → Option (Str × Stream.Ev)} {D D' : Library} {l now : Nat} {cmd : Cmd} {r : Option Response}
    (h : LStep env bg D (.did l cmd now r) D') (hc : isStream cmd = false) : D' = D := by
  cases h with
  | missing => rfl
  | other => rfl
  | _ => first | rfl | cases hc

/-- So do the tasks of other brokers. -/
theorem LStep.elsewhere {env : Env} {bg : I → Option (Str × Stream.Ev)} {D D' : Library} {x : I} (h : LStep env bg D (.ticked x) D') (hx : bg x = none) :
    D' = D := by
  cases h with
  | idle => rfl
  | keeps => rfl
  | closed _ _ _ _ _ h => rw [hx] at h; cases h
  | late _ _ _ _ _ h => rw [hx] at h; cases h
  | removes _ _ _ _ h => rw [hx] at h; cases h

theorem shop_other {cmd : Cmd} (h : isQueue cmd = false) (vt mr batch fresh now : Nat) (s : Shop) : (s.serve vt mr batch fresh now cmd).1 = s := by
  cases cmd <;> first | rfl | cases h

theorem push_queue {l now : Nat} {cmd : Cmd} {r : Option Response} (h : isQueue cmd = false) : isPush (.did l cmd now r : Act I) = false := by
  cases cmd <;> first | rfl | cases h

/-- The house after the acts. -/
def houseAfter (c : Conf) (A : List (Act Task)) (D : Library) : House :=
  let s := shopAfter c.queue.visibilityTimeout c.queue.maxRetries c.batch c.supply engineQueue A
  ⟨shelfAfter c.storeTtl engineSweep A, s.1, s.2, D⟩

/-- The answers fit. -/
structure Fits (c : Conf) (A : List (Act Task)) : Prop where
  store : ∀ u l cmd now r w, A = u ++ .did l cmd now r :: w → isStore cmd = true → ((shelfAfter c.storeTtl engineSweep u).serve c.storeTtl now cmd).2 = r
  queue : ∀ u l cmd now r w, A = u ++ .did l cmd now r :: w → isQueue cmd = true →
    tells cmd (outcome c.queue.visibilityTimeout c.queue.maxRetries c.batch c.supply engineQueue u now cmd) r
  pubsub : ∀ u l cmd now r w, A = u ++ .did l cmd now r :: w → isPubSub cmd = true → hubAnswer c.hub.dflt now cmd = r

theorem Fits.prefix {c : Conf} {A : List (Act Task)} {a : Act Task} (h : Fits c (A ++ [a])) : Fits c A :=
  ⟨fun u l cmd now r w hs => h.store u l cmd now r (w ++ [a]) (by rw [hs]; simp), fun u l cmd now r w hs => h.queue u l cmd now r (w ++ [a]) (by rw [hs]; simp),
    fun u l cmd now r w hs => h.pubsub u l cmd now r (w ++ [a]) (by rw [hs]; simp)⟩

theorem house_step {c : Conf} {A : List (Act Task)} {a : Act Task} {D D' : Library} (hf : Fits c (A ++ [a])) (h : LStep c.stream engineStream D a D') :
    HStep c (houseAfter c A D) a (houseAfter c (A ++ [a]) D') := by
  have e : ∀ B : List (Act Task), houseAfter c (A ++ B) D' =
      ⟨B.foldl (shelfStep c.storeTtl engineSweep) (shelfAfter c.storeTtl engineSweep A),
        (B.foldl (shopStep c.queue.visibilityTimeout c.queue.maxRetries c.batch c.supply engineQueue)
          (shopAfter c.queue.visibilityTimeout c.queue.maxRetries c.batch c.supply engineQueue A)).1,
        (B.foldl (shopStep c.queue.visibilityTimeout c.queue.maxRetries c.batch c.supply engineQueue)
          (shopAfter c.queue.visibilityTimeout c.queue.maxRetries c.batch c.supply engineQueue A)).2, D'⟩ := by
    intro B
    simp only [houseAfter, shelfAfter, shopAfter, List.foldl_append]
  rw [e]
  cases a with
  | did l cmd now r =>
    simp only [List.foldl_cons, List.foldl_nil, shelfStep, shopStep]
    cases hb : Cmd.broker cmd with
    | store =>
      have h1 : isQueue cmd = false := by cases cmd <;> first | rfl | cases hb
      have h2 : isStream cmd = false := by cases cmd <;> first | rfl | cases hb
      have := h.apart h2
      subst this
      rw [shop_other h1, push_queue h1]
      exact .store l now cmd r hb (hf.store A l cmd now r [] rfl (broker_store.2 hb))
    | queue =>
      have h1 : isStore cmd = false := by cases cmd <;> first | rfl | cases hb
      have h2 : isStream cmd = false := by cases cmd <;> first | rfl | cases hb
      have := h.apart h2
      subst this
      rw [serve_other h1]
      exact .queue (h := houseAfter c A D') l now cmd r hb (hf.queue A l cmd now r [] rfl (broker_queue.2 hb))
    | stream =>
      have h1 : isStore cmd = false := by cases cmd <;> first | rfl | cases hb
      have h2 : isQueue cmd = false := by cases cmd <;> first | rfl | cases hb
      rw [serve_other h1, shop_other h2, push_queue h2]
      exact .stream l now cmd r D' hb (by rw [topicTask_eq]; exact h)
    | pubsub =>
      have h1 : isStore cmd = false := by cases cmd <;> first | rfl | cases hb
      have h2 : isQueue cmd = false := by cases cmd <;> first | rfl | cases hb
      have h3 : isStream cmd = false := by cases cmd <;> first | rfl | cases hb
      have := h.apart h3
      subst this
      rw [serve_other h1, shop_other h2, push_queue h2]
      exact .pubsub l now cmd r hb (hf.pubsub A l cmd now r [] rfl (broker_pubsub.2 hb))
  | ticked x =>
    simp only [List.foldl_cons, List.foldl_nil, shelfStep, shopStep]
    cases x with
    | sweep k now => have := h.elsewhere rfl; subst this; exact .clean k now
    | commit q k => have := h.elsewhere rfl; subst this; exact .commit q k
    | timeouts q t t' => have := h.elsewhere rfl; subst this; exact .timeouts (h := houseAfter c A D') q t t'
    | stream n ev => exact .topic n ev D' (by rw [topicTask_eq]; exact h)
    | hub op => have := h.elsewhere (x := Task.hub op) rfl; subst this; exact .hub op

theorem house_run {c : Conf} {A : List (Act Task)} {D : Library} (h : LRun c.stream engineStream A D) : Fits c A → HRun c A (houseAfter c A D) := by
  induction h with
  | start => exact fun _ => .start
  | step _ ha ih => exact fun hf => (ih hf.prefix).step (house_step hf ha)

end Verif.Rpc
