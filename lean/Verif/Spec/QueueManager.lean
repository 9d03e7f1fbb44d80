import Verif.Model.QueueManager

/-!
# Vocabulary for properties of several queues

`Lone`: one queue on its own, which may or may not exist, with the history of that queue only.
-/

namespace Verif.Queue

/-- The queue an event is about (a restart is about all of them). -/
def MEvent.target : MEvent → Option Str
  | .create n .. => some n
  | .delete n => some n
  | .exist n => some n
  | .op n _ => some n
  | .commit n _ => some n
  | .restart _ => none

/-- Everything there is about queue `n`: its contents in memory, its database and its configuration file. -/
def Mgr.view (s : Mgr) (n : Str) : Option Live × Option DB × Option Config :=
  (mget s.live n, mget s.dbs (dbFile n), mget s.cfgs (cfgFile n))

/-- The event concerns queue `n`. -/
def MEvent.about (n : Str) (e : MEvent) : Bool :=
  match e.target with
  | some m => decide (m = n)
  | none => true

/-- The answers to the events that concern queue `n`. -/
def answersFor (n : Str) : List MEvent → List MAns → List MAns
  | e :: es, a :: as => if e.about n then a :: answersFor n es as else answersFor n es as
  | _, _ => []

/-- One queue on its own: created empty, deleted, otherwise the `Sys` of properties C22-C35. -/
def loneStep (dflt : Config) (s : Option Sys) : MEvent → Option Sys × MAns
  | .create _ vt mr _ =>
    match s with
    | some s => (some s, .ok)
    | none => (some (Sys.new (Config.fromOptions vt mr dflt)), .ok)
  | .delete _ => (none, .ok)
  | .exist _ => (s, .bool s.isSome)
  | .op _ o =>
    match s with
    | none => (none, missing o)
    | some s => (some (s.step (.op o)).1, .out (Queue.step s.q o).2.1)
  | .commit _ k => (s.map (fun s => (s.step (.commit k)).1), .none)
  | .restart now => (s.map (fun s => (s.step (.restart now)).1), .none)

def loneRun (dflt : Config) (s : Option Sys) : List MEvent → Option Sys × List MAns
  | [] => (s, [])
  | e :: t =>
    let r := loneStep dflt s e
    let r' := loneRun dflt r.1 t
    (r'.1, r.2 :: r'.2)

/-- The name does not end in ".db" and has no "/" in it. -/
def plainName (n : Str) : Prop := ¬ dotDb <:+ n ∧ (47 : UInt8) ∉ n

/-- All queues created in the history have plain names. -/
def PlainNames (es : List MEvent) : Prop :=
  ∀ e ∈ es, match e with | .create n .. => plainName n | _ => True

end Verif.Queue
