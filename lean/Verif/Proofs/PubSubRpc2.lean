import Verif.Proofs.PubSubRpc
import Verif.Proofs.QueueRpc
import Verif.Proofs.PubSub

/-!
# Lemmas about publish/subscribe behind the network: the broker and the acts
-/

namespace Verif.Rpc

open Verif Verif.Wire Verif.Sdk

variable {E I : Type}

section
variable (env : HubEnv) (bg : I → Option PubSub.Op)

/-- The operation an act runs, as the `k`-th one. -/
def hubOp (k : Nat) : Act I → Option PubSub.Op
  | .did l cmd now _ => hubCall env k l now cmd
  | .ticked x => bg x

def hubOps (k : Nat) : List (Act I) → List PubSub.Op
  | [] => []
  | a :: t => (hubOp env bg k a).toList ++ hubOps (k + (hubOp env bg k a).toList.length) t

theorem hubOps_append (k : Nat) (a b : List (Act I)) :
    hubOps env bg k (a ++ b) = hubOps env bg k a ++ hubOps env bg (k + (hubOps env bg k a).length) b := by
  induction a generalizing k with
  | nil => simp [hubOps]
  | cons x a ih =>
    simp only [List.cons_append, hubOps, ih, List.append_assoc, List.length_append]
    rw [Nat.add_assoc]

theorem hubOps_snoc (a : List (Act I)) (x : Act I) :
    hubOps env bg 0 (a ++ [x]) = hubOps env bg 0 a ++ (hubOp env bg (hubOps env bg 0 a).length x).toList := by
  rw [hubOps_append]; simp [hubOps]

/-- The broker after some operations. -/
def hubRun (h : Hub) (ops : List PubSub.Op) : Hub := ops.foldl (Hub.step env) h

theorem hubRun_append (h : Hub) (a b : List PubSub.Op) : hubRun env h (a ++ b) = hubRun env (hubRun env h a) b := List.foldl_append ..

theorem hubRun_steps (h : Hub) (ops : List PubSub.Op) : (hubRun env h ops).steps = h.steps + ops.length := by
  induction ops generalizing h with
  | nil => rfl
  | cons o t ih =>
    show (hubRun env (h.step env o) t).steps = _
    rw [ih]; show h.steps + 1 + _ = _; rw [List.length_cons]; omega

theorem hubRun_st (h : Hub) (ops : List PubSub.Op) : (hubRun env h ops).st = (PubSub.run env.dflt h.st ops).1 := by
  induction ops generalizing h with
  | nil => rfl
  | cons o t ih => show (hubRun env (h.step env o) t).st = _; rw [ih]; rfl

end

theorem call_isPubSub {env : HubEnv} {k l now : Nat} {cmd : Cmd} : (hubCall env k l now cmd).isSome = isPubSub cmd := by cases cmd <;> rfl

/-- The broker after a trace is the broker after its operations. -/
theorem hub_state {srv : Server E I} {env : HubEnv} {part : E → Hub} {bg : I → Option PubSub.Op} {desk : Desk I}
    (hp : PubPart srv env part bg desk) {e0 : E} (h0 : (part e0).steps = 0) (tr : List (Obs I)) :
    part (state srv e0 tr) = hubRun env (part e0) (hubOps env bg 0 (acts tr)) := by
  induction tr using Sdk.snoc_ind with
  | h0 => rfl
  | h1 tr o ih =>
    rw [state_snoc, acts_snoc]
    have hst := hubRun_steps env (part e0) (hubOps env bg 0 (acts tr))
    rw [h0, Nat.zero_add] at hst
    cases o with
    | executed l f now r =>
      simp only [effect, actOf]
      cases hc : cmdAt l f.id tr with
      | none => simpa using ih
      | some cmd =>
        simp only [Option.map_some, Option.toList]
        rw [hubOps_snoc, hubRun_append, ← ih]
        simp only [hubOp]
        rw [← ih] at hst
        by_cases hs : isPubSub cmd = true
        · have h2 : part (srv.exec l now cmd (state srv e0 tr)).1 = (hubExec env l now cmd (part (state srv e0 tr))).1 :=
            congrArg Prod.fst (hp.exec l now cmd (state srv e0 tr) hs)
          rw [h2]
          unfold hubExec
          rw [hst]
          cases hq : hubCall env (hubOps env bg 0 (acts tr)).length l now cmd with
          | none => rw [← call_isPubSub, hq] at hs; cases hs
          | some op => rfl
        · have hs' : isPubSub cmd = false := by simpa using hs
          rw [hp.other l now cmd _ hs']
          have hq : hubCall env (hubOps env bg 0 (acts tr)).length l now cmd = none := by
            rw [← Option.isNone_iff_eq_none, ← Option.not_isSome, call_isPubSub, hs']; rfl
          rw [hq]; rfl
    | ticked x =>
      simp only [effect, actOf, Option.toList]
      rw [hubOps_snoc, hubRun_append, ← ih, hp.tick]
      simp only [hubOp]
      cases bg x <;> rfl
    | called | fired | pushed | settled => simpa [effect, actOf] using ih

/-! ### Whom the broker sends to -/

theorem sent_reaches {dflt : Nat} {s : PubSub.State} {op : PubSub.Op} {c : Nat} {m : PubSub.Msg} (h : (c, m) ∈ (PubSub.step dflt s op).2.sent) :
    PubSub.reaches s c = true := by
  cases op with
  | subscribe c' p order now =>
    simp only [PubSub.step, PubSub.subscribe] at h
    cases hc : mget s.clients c' with
    | none => simp [hc] at h
    | some info =>
      simp only [hc] at h
      split at h
      · next ha =>
        obtain ⟨x, _, hx⟩ := List.mem_map.mp h
        injection hx with hx _
        subst hx
        simp [PubSub.reaches, hc, ha]
      · cases h
  | publish topic data keep ttl now unixNow =>
    have hd : ∀ s' : PubSub.State, s'.clients = s.clients → (c, m) ∈ (PubSub.deliver s' topic data).2.sent → PubSub.reaches s c = true := by
      intro s' hs' hm
      simp only [PubSub.deliver] at hm
      obtain ⟨x, hx, he⟩ := List.mem_map.mp hm
      injection he with he _
      subst he
      have := (List.mem_filter.mp hx).2
      simpa [PubSub.reaches, hs'] using this
    simp only [PubSub.step, PubSub.publish] at h
    split at h
    · cases hr : PubSub.retain dflt s topic data ttl now unixNow with
      | none => simp [hr] at h
      | some s' =>
        simp only [hr] at h
        refine hd s' ?_ h
        unfold PubSub.retain at hr
        split at hr
        · injection hr with hr; subst hr; rfl
        · split at hr
          · injection hr with hr; subst hr; rfl
          · cases hr
    · exact hd s rfl h
  | flush now ok =>
    simp only [PubSub.step] at h
    split at h <;> cases h
  | _ => cases h

/-- Messages go only to connections the broker was told of. -/
theorem sent_connected {dflt : Nat} {db : List PubSub.Row} {t0 u0 : Nat} {ops : List PubSub.Op} (hn : (PubSub.connects ops).Nodup) {op : PubSub.Op}
    {c : Nat} {m : PubSub.Msg} (h : (c, m) ∈ (PubSub.step dflt (PubSub.run dflt (PubSub.boot db t0 u0) ops).1 op).2.sent) :
    c ∈ PubSub.connects ops := by
  have hi := PubSub.SubInv.of_run (dflt := dflt) (db := db) (t0 := t0) (u0 := u0) ops hn
  have := PubSub.connected_mem ((hi.reaches_iff c).symm.trans (sent_reaches h))
  rw [PubSub.connects_reverse] at this
  exact List.mem_reverse.mp this

end Verif.Rpc
