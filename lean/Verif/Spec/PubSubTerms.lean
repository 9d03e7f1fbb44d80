import Verif.Spec.PubSubRpc

/-!
# Publish/subscribe behind the network, from one life of the server to the next: vocabulary
-/

namespace Verif.Rpc

open Verif Verif.Wire Verif.Sdk

variable {E I : Type}

/-- What the server has for one topic: the value it serves, the value in its database, and how many operations of the broker it has carried out
since it started. -/
structure Slot where
  mem : Option PubSub.Kept := none
  disk : Option PubSub.Kept := none
  count : Nat := 0

/-- The value of a row of the database. -/
def rowValue (v : Bytes × Option Nat) : PubSub.Kept := ⟨v.1, none, v.2⟩

/-- A value that is read from the database when the server starts, at monotonic time `t` and wall clock second `u`: it is served for the rest of
its time in whole seconds (and, as the code has it, without end if nothing is left of it). -/
def revive (t u : Nat) (k : PubSub.Kept) : PubSub.Kept :=
  { k with until_ := match k.untilUnix with | some w => if u < w then some (t + (w - u) * PubSub.second) else none | none => none }

/-- The server starts. -/
def Slot.start (t u : Nat) (s : Slot) : Slot := { s with mem := s.disk.map (revive t u), count := 0 }

/-- The act concerns the broker. -/
def onHub (bg : I → Option PubSub.Op) : Act I → Bool
  | .did _ cmd _ _ => isPubSub cmd
  | .ticked x => (bg x).isSome

/-- One more act: a retained publish on the topic sets the value, or clears it; a flush writes it down.  A flush that finds the value expired
removes it from the database, or leaves it there (`loose`). -/
def Slot.act (loose : Bool) (dflt : Nat) (unix : Nat → Nat) (bg : I → Option PubSub.Op) (topic : Str) (s : Slot) (a : Act I) : Slot :=
  let s' := { s with count := s.count + if onHub bg a then 1 else 0 }
  match a with
  | .did _ (.publish t opts data) now (some .ok) =>
    if t = topic ∧ opts.retain = some true then
      { s' with mem :=
          if data = [] then none
          else some ⟨data, some (now + opts.ttl.getD dflt * PubSub.second), some (unix s.count + opts.ttl.getD dflt)⟩ }
    else s'
  | .ticked x =>
    match bg x with
    | some (.flush now true) => { s' with disk := if loose then s.mem else s.mem.filter (fun k => k.live now) }
    | _ => s'
  | _ => s'

def Slot.acts (loose : Bool) (dflt : Nat) (unix : Nat → Nat) (bg : I → Option PubSub.Op) (topic : Str) (s : Slot) (A : List (Act I)) : Slot :=
  A.foldl (Slot.act loose dflt unix bg topic) s

/-- A life of the server: it starts at monotonic time `t0` and wall clock second `u0` with engine `e0`, and `es` happens.  It may end at any
moment. -/
structure Term (E I : Type) where
  srv : Server E I
  env : HubEnv
  e0 : E
  t0 : Nat
  u0 : Nat
  es : List (HEv I)

section
variable (pr : Printer) (desk : Desk I) (bg : I → Option PubSub.Op) (part : E → Hub)

/-- What could be seen in it. -/
def Term.trace (r : Term E I) : List (Obs I) := hubTrace pr r.srv desk bg part r.e0 r.es

/-- What the requests and the background did in it. -/
def Term.did (r : Term E I) : List (Act I) := acts (r.trace pr desk bg part)

/-- The database that it leaves behind. -/
def Term.left (r : Term E I) : List PubSub.Row := (part (hubWorld pr r.srv desk bg part r.e0 r.es).engine).st.db

/-- What is asked of it: it starts from the database, in its patterns `#` comes only last, its monotonic clock does not go back, topics of retained
publishes do not begin with `/`, and its flushes succeed. -/
structure Term.Ok (db : List PubSub.Row) (r : Term E I) : Prop where
  served : PubPart r.srv r.env part bg desk
  starts : part r.e0 = { st := PubSub.boot db r.t0 r.u0 }
  ordinary : Ordinary pr r.srv (r.trace pr desk bg part)
  proper : ProperActs (r.did pr desk bg part)
  clock : ClockActs bg r.t0 (r.did pr desk bg part)
  plain : PlainActs (r.did pr desk bg part)
  flushes : ∀ x now, Act.ticked x ∈ r.did pr desk bg part → bg x ≠ some (.flush now false)

/-- One life after the other, each from the database that the one before left behind. -/
def Terms : List PubSub.Row → List (Term E I) → Prop
  | _, [] => True
  | db, r :: rs => r.Ok pr desk bg part db ∧ Terms (r.left pr desk bg part) rs

/-- What the server has for a topic after these lives. -/
def Slot.terms (loose : Bool) (topic : Str) : Slot → List (Term E I) → Slot
  | s, [] => s
  | s, r :: rs => Slot.terms loose topic ((s.start r.t0 r.u0).acts loose r.env.dflt r.env.unix bg topic (r.did pr desk bg part)) rs

/-- What it has for it after these lives and, in the present one, these acts; at first the database was `db`. -/
def slotAt (loose : Bool) (topic : Str) (db : List PubSub.Row) (past : List (Term E I)) (now : Term E I) (u : List (Act I)) : Slot :=
  ((Slot.terms pr desk bg part loose topic { disk := (mget db topic).map rowValue } past).start now.t0 now.u0).acts
    loose now.env.dflt now.env.unix bg topic u

/-- What a subscription is greeted with: nothing, if the connection has ended; otherwise, for the matching topics, each at most once, the values that
the server has, as long as their time is not over.  Values whose time was over before they were removed from the database may be among them
(`loose`); all others are. -/
def Welcomed (db : List PubSub.Row) (past : List (Term E I)) (now : Term E I) (l : Nat) (said : List (List PubSub.Msg)) : Prop :=
  ∀ u p t r v, now.did pr desk bg part = u ++ .did l (.subscribe p) t r :: v → ∀ msgs, said[u.length]? = some msgs →
    ((∃ a ∈ u, endsLink bg l a) → msgs = []) ∧
    ((∀ a ∈ u, ¬ endsLink bg l a) → (msgs.map (·.topic)).Nodup ∧
      (∀ m ∈ msgs, PubSub.Matches (PubSub.split p) (PubSub.split m.topic) ∧
        ∃ k, (slotAt pr desk bg part true m.topic db past now u).mem = some k ∧ k.live t = true ∧ m.payload = k.data) ∧
      ∀ topic k, PubSub.Matches (PubSub.split p) (PubSub.split topic) → (slotAt pr desk bg part false topic db past now u).mem = some k →
        k.live t = true → ⟨topic, k.data⟩ ∈ msgs)

end

end Verif.Rpc
