import Verif.Spec.StreamRpc
import Verif.Spec.StreamGroup

/-!
# Streams as one sequential object: specification

A topic is the list of the messages published, the number of the oldest one still kept, whether it keeps everything (it was created with
both retention limits zero, which means: no limit), and its groups.  A group is its generation (how
often it has been sought), its members (consumer and connection), and the fate of each message (`Spec/StreamGroup.lean`): fresh, held by a
consumer, waiting for redelivery, or done.  `LStep` says which answers a command may get and what becomes of the topics: every answer is
determined by the topics, except that retention chooses what it removes, a new consumer gets any id that is not in use, and a fetch hands
out any messages that the group is owed, or none.
-/

namespace Verif.Rpc

open Verif Verif.Wire Verif.Sdk
open Verif.Stream (Fate)

structure Crew where
  gen : Nat
  members : List (Str × Str)
  fate : Nat → Fate

structure Ledger where
  log : List (Nat × Bytes)
  head : Nat
  keeps : Bool
  crews : Str → Option Crew

/-- All topics. -/
abbrev Library := Str → Option Ledger

def Library.set (D : Library) (n : Str) (L : Option Ledger) : Library := fun m => if m = n then L else D m

def Ledger.set (L : Ledger) (g : Str) (c : Crew) : Ledger := { L with crews := fun h => if h = g then some c else L.crews h }

/-- The same for all groups. -/
def Ledger.all (L : Ledger) (f : Crew → Crew) : Ledger := { L with crews := fun g => (L.crews g).map f }

/-- A topic that has just been created with these options. -/
def Ledger.empty (o : StreamOpts) : Ledger := ⟨[], 1, o.retention == some (some 0, some 0), fun _ => none⟩

/-- From message `first` on, everything is owed to the group. -/
def owedFrom (first : Nat) : Nat → Fate := fun s => if first ≤ s then .fresh else .skipped

/-- The group `g`; a group that is mentioned for the first time is owed everything that is kept. -/
def Ledger.crew (L : Ledger) (g : Str) : Crew := (L.crews g).getD ⟨1, [], owedFrom L.head⟩

/-- Something happens to the messages of the group. -/
def Crew.sees (env : Env) (c : Crew) (o : Stream.Obs) : Crew := { c with fate := fun s => (c.fate s).step env.sys.maxDeliveries env.sys.ackWait s o }

def Crew.has (c : Crew) (id : Str) : Prop := ∃ conn, (id, conn) ∈ c.members

/-- The messages are handed to consumer `id`. -/
def Crew.hand (env : Env) (id : Str) (now : Nat) (c : Crew) (seqs : List Nat) : Crew := seqs.foldl (fun c s => c.sees env (.delivered id now s)) c

/-- The consumers of connection `conn` are gone. -/
def Crew.lose (env : Env) (conn : Str) (c : Crew) : Crew :=
  { c.sees env (.left (fun id => decide ((id, conn) ∈ c.members))) with members := c.members.filter (fun m => m.2 ≠ conn) }

def err (s : String) : Option Response := some (.error (ascii s))

/-- The steps of the background that clients can notice. -/
def noticed : Stream.Ev → Bool
  | .disconnect .. | .tick .. | .retainDone => true
  | _ => false

variable {I : Type}

/-- What an act may be, and what it does to the topics. -/
inductive LStep (env : Env) (bg : I → Option (Str × Stream.Ev)) (D : Library) : Act I → Library → Prop
  | create (l now n o) (h : D n = none) : LStep env bg D (.did l (.sCreate n o) now (some .ok)) (D.set n (some (.empty o)))
  | again (l now n o) (h : D n ≠ none) : LStep env bg D (.did l (.sCreate n o) now (some .ok)) D
  | delete (l now n) : LStep env bg D (.did l (.sDelete n) now (some .ok)) (D.set n none)
  | present (l now n) (h : D n ≠ none) : LStep env bg D (.did l (.sExists n) now (some .ok)) D
  | stray (l now n k) (h : env.found k n = true) : LStep env bg D (.did l (.sExists n) now (some .ok)) D
  | absent (l now n) (h : D n = none) : LStep env bg D (.did l (.sExists n) now (err "Stream not found")) D
  | missing (l now n cmd) (hc : onTopic cmd = some n) (h : D n = none) : LStep env bg D (.did l cmd now (err "Topic not found")) D
  | publish (l now n pl L) (h : D n = some L) :
      LStep env bg D (.did l (.sPub n pl) now (some (.data (wireSeq (L.log.length + 1)))))
        (D.set n (some { L with log := L.log ++ [(now, pl)] }))
  | join (l now n g L c floor) (h : D n = some L) (new : ¬ (L.crew g).has c) (done : ∀ s ≤ floor, ((L.crew g).fate s).settled = true)
      (due : ((L.crew g).fate (floor + 1)).settled = false) :
      LStep env bg D (.did l (.sJoin g n) now (some (.data (wireJoin floor (L.crew g).gen c))))
        (D.set n (some (L.set g { L.crew g with members := (c, env.conn l) :: (L.crew g).members })))
  | seek (l now n g toEnd L) (h : D n = some L) :
      LStep env bg D (.did l (.sSeek n g toEnd) now (some .ok))
        (D.set n (some (L.set g ⟨(L.crew g).gen + 1, [], owedFrom (if toEnd then L.log.length + 1 else L.head)⟩)))
  -- leaving
  | leaveUnknown (l now n g c gen L) (h : D n = some L) (hg : L.crews g = none) :
      LStep env bg D (.did l (.sLeave n g c gen) now (err "Group not found")) D
  | leaveFenced (l now n g c gen L C) (h : D n = some L) (hg : L.crews g = some C) (hf : gen ≠ C.gen) :
      LStep env bg D (.did l (.sLeave n g c gen) now (err "FENCED")) D
  | leaveStranger (l now n g c L C) (h : D n = some L) (hg : L.crews g = some C) (hm : ¬ C.has c) :
      LStep env bg D (.did l (.sLeave n g c C.gen) now (err "NOT_MEMBER")) D
  | leave (l now n g c L C) (h : D n = some L) (hg : L.crews g = some C) (hm : C.has c) :
      LStep env bg D (.did l (.sLeave n g c C.gen) now (some .ok))
        (D.set n (some (L.set g { C.sees env (.left (fun id => decide (id = c))) with members := C.members.filter (fun m => m.1 ≠ c) })))
  -- acknowledging
  | ackUnknown (l now n g c gen s L) (h : D n = some L) (hg : L.crews g = none) :
      LStep env bg D (.did l (.sAck n g c gen s) now (err "Group not found")) D
  | ackFenced (l now n g c gen s L C) (h : D n = some L) (hg : L.crews g = some C) (hf : gen ≠ C.gen) :
      LStep env bg D (.did l (.sAck n g c gen s) now (err "FENCED")) D
  | ackStranger (l now n g c s L C) (h : D n = some L) (hg : L.crews g = some C) (hm : ¬ C.has c) :
      LStep env bg D (.did l (.sAck n g c C.gen s) now (err "NOT_MEMBER")) D
  | ackIdle (l now n g c s L C) (h : D n = some L) (hg : L.crews g = some C) (hm : C.has c) (hh : ∀ c' at_ k, C.fate s ≠ .held c' at_ k) :
      LStep env bg D (.did l (.sAck n g c C.gen s) now (err ("seq " ++ toString s ++ " not pending"))) D
  | ackOther (l now n g c s L C c' at_ k) (h : D n = some L) (hg : L.crews g = some C) (hm : C.has c) (hh : C.fate s = .held c' at_ k)
      (hne : c' ≠ c) : LStep env bg D (.did l (.sAck n g c C.gen s) now (err "NOT_OWNER")) D
  | ack (l now n g c s L C at_ k) (h : D n = some L) (hg : L.crews g = some C) (hm : C.has c) (hh : C.fate s = .held c at_ k) :
      LStep env bg D (.did l (.sAck n g c C.gen s) now (some .ok)) (D.set n (some (L.set g (C.sees env (.acked s)))))
  -- fetching
  | fetchUnknown (l now n g c gen lim w L) (h : D n = some L) (hg : L.crews g = none) :
      LStep env bg D (.did l (.sFetch n g c gen lim w) now (err "Group not found")) D
  | fetchFenced (l now n g c gen lim w L C) (h : D n = some L) (hg : L.crews g = some C) (hf : gen ≠ C.gen) :
      LStep env bg D (.did l (.sFetch n g c gen lim w) now (err "FENCED")) D
  | fetchStranger (l now n g c lim w L C) (h : D n = some L) (hg : L.crews g = some C) (hm : ¬ C.has c) :
      LStep env bg D (.did l (.sFetch n g c C.gen lim w) now (err "NOT_MEMBER")) D
  | fetchNothing (l now n g c gen lim w L d) (h : D n = some L) (hg : L.crews g ≠ none) (hd : d = wireFetch []) :
      LStep env bg D (.did l (.sFetch n g c gen lim w) now (some (.data d))) D
  | fetch (l now n g c lim w L C d ms) (h : D n = some L) (hg : L.crews g = some C) (hm : C.has c)
      (hd : fetchedMsgs (some (.data d)) = ms) (hl : ms.length ≤ lim) (once : (ms.map (·.1)).Nodup)
      (ok : ∀ m ∈ ms, 1 ≤ m.1 ∧ L.head ≤ m.1 ∧ L.log[m.1 - 1]? = some m.2 ∧ (C.fate m.1).owed = true ∧ (C.fate m.1).count < env.sys.maxDeliveries) :
      LStep env bg D (.did l (.sFetch n g c C.gen lim w) now (some (.data d))) (D.set n (some (L.set g (C.hand env c now (ms.map (·.1))))))
  -- the background
  | idle (x) (h : ∀ n ev L, bg x = some (n, ev) → D n = some L → noticed ev = false) : LStep env bg D (.ticked x) D
  | closed (x n conn order L) (hx : bg x = some (n, .disconnect conn order)) (h : D n = some L) :
      LStep env bg D (.ticked x) (D.set n (some (L.all (Crew.lose env conn))))
  | late (x n now order L) (hx : bg x = some (n, .tick now order)) (h : D n = some L) :
      LStep env bg D (.ticked x) (D.set n (some (L.all (fun C => C.sees env (.tick now)))))
  | keeps (x n) (hx : bg x = some (n, .retainDone)) : LStep env bg D (.ticked x) D
  | removes (x n L head) (hx : bg x = some (n, .retainDone)) (h : D n = some L) (hh : 1 ≤ head ∧ head ≤ L.log.length + 1)
      (hk : L.keeps = true → head = 1) :
      LStep env bg D (.ticked x) (D.set n (some { L.all (fun C => C.sees env (.removed head)) with head }))
  -- what is not about streams
  | other (l now cmd r) (h : isStream cmd = false) : LStep env bg D (.did l cmd now r) D

/-- The acts can be carried out one after the other, each with its answer, starting without topics; the topics are then `D`. -/
inductive LRun (env : Env) (bg : I → Option (Str × Stream.Ev)) : List (Act I) → Library → Prop
  | start : LRun env bg [] (fun _ => none)
  | step {A a D D'} (h : LRun env bg A D) (ha : LStep env bg D a D') : LRun env bg (A ++ [a]) D'

end Verif.Rpc
