import Verif.Model.StreamLife

/-!
# What is said about overlapping requests that create, delete and use one stream topic
-/

namespace Verif.StreamLife

/-- The topic as requests find it. -/
def Life.topic (s : Life) : Option Obj :=
  match s.live with
  | none => none
  | some k => mget s.objs k

/-- An unanswered delete. -/
def Task.isDelete : Task → Bool
  | .look | .drop => true
  | _ => false

/-- An unanswered publish. -/
def Task.isPublish : Task → Bool
  | .found .. | .appended _ => true
  | _ => false

/-- Nothing overlaps: a create of a topic that does not exist begins when no request about it is unanswered and no group progress is
under way to the storage task; a delete begins when only other deletes are unanswered. -/
def Apart (sys : Defaults) (s : Life) : List Ev → Prop
  | [] => True
  | e :: t =>
    (match e with
      | .create .. => s.live.isSome = true ∨ (s.tasks = [] ∧ s.saving = none)
      | .delete _ => (s.tasks.all (fun x => x.2.isDelete) = true ∧ s.saving = none)
      | _ => True) ∧
    Apart sys (s.step sys e).1 t

instance Apart.dec (sys : Defaults) : ∀ (es : List Ev) (s : Life), Decidable (Apart sys s es)
  | [], _ => isTrue trivial
  | e :: t, s =>
    have := Apart.dec sys t (s.step sys e).1
    match e with
    | .create .. => inferInstanceAs (Decidable ((s.live.isSome = true ∨ (s.tasks = [] ∧ s.saving = none)) ∧ _))
    | .delete _ => inferInstanceAs (Decidable ((s.tasks.all (fun x => x.2.isDelete) = true ∧ s.saving = none) ∧ _))
    | .createOn _ | .deleteOn _ | .publish _ _ | .publishOn _ | .ack _ _ | .saveTake | .saveSend | .store | .exist | .restart =>
      inferInstanceAs (Decidable (True ∧ _))

/-- The messages in commands that the storage task has yet to handle. -/
def appends : List Cmd → List Rec
  | [] => []
  | .append r :: t => r :: appends t
  | _ :: t => appends t

/-- The messages that have a number, but have not been sent to the storage task (their publish is unanswered). -/
def unsent : List (Nat × Task) → List Rec
  | [] => []
  | (_, .appended r) :: t => r :: unsent t
  | _ :: t => unsent t

end Verif.StreamLife
