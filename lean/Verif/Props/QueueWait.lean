import Verif.Proofs.QueueWait
import Verif.Props.Queue

/-!
# Property C37: long-polling consumers are not forgotten
-/

namespace Verif.Queue

/-- C37: in every schedule of requests, notifications and waiters: if a message is waiting and no notification
is on its way, then every sleeping consumer (that asked for at least one message) has been notified - its
`wake` step is enabled and leads it to try again. -/
theorem C37_no_lost_wakeup (cfg : Config) {es : List WEvent} (hv : ValidSched es) :
    let s := (Waits.new cfg).run es
    waiting s.q ≠ [] → s.notifying = 0 → ∀ i max snap, s.waiters[i]? = some (.asleep max snap) → 0 < max →
      (s.step (.wake i)).waiters[i]? = some (.trying max s.counter) := by
  intro s hw hn i max snap hi hm
  have hinv : WaitInv s ([] ++ waitIds es) := WaitInv.run es ⟨⟨_, RQ.init cfg _⟩, by simp [Waits.new], by simp [Waits.new]⟩ hv (by simp)
  have h := (hinv.asleep max snap (List.mem_of_getElem? hi)).2.2 hm hw
  have hne : snap ≠ s.counter := fun hh => by have := h hh; omega
  simp only [Waits.step, hi, if_pos hne]
  have hlt : i < s.waiters.length := by
    obtain ⟨h1, _⟩ := List.getElem?_eq_some_iff.1 hi
    exact h1
  rw [List.getElem?_set_self hlt]

/-- C37: and a consumer that tries while a message is waiting gets at least one. -/
theorem C37_try_succeeds (cfg : Config) {es : List WEvent} (hv : ValidSched es) {i max snap : Nat} (now : Nat) (late : Bool) :
    let s := (Waits.new cfg).run es
    waiting s.q ≠ [] → s.waiters[i]? = some (.trying max snap) → 0 < max →
      ∃ l, l ≠ [] ∧ (s.step (.try_ i now late)).waiters[i]? = some (.done l) := by
  intro s hw hi hm
  have hinv : WaitInv s ([] ++ waitIds es) := WaitInv.run es ⟨⟨_, RQ.init cfg _⟩, by simp [Waits.new], by simp [Waits.new]⟩ hv (by simp)
  obtain ⟨a, ha⟩ := hinv.q
  obtain ⟨l, hl, hl0⟩ := consume_takes ha (now := now) (hinv.trying max snap (List.mem_of_getElem? hi)).1
  have hlt : i < s.waiters.length := (List.getElem?_eq_some_iff.1 hi).1
  cases l with
  | nil => exact absurd (hl0 rfl hm) hw
  | cons x t =>
    refine ⟨x :: t, by simp, ?_⟩
    simp only [Waits.step, hi, hl]
    rw [List.getElem?_set_self hlt]

/-! A consumer falls asleep, a message is pushed and the notification is sent. -/
def exSched : List WEvent := [.enter 5, .try_ 0 1 false, .op (.push 1 [10] 0 2), .enter 1, .notify]
example : ValidSched exSched := by
  refine ⟨?_, by decide⟩
  intro e he
  simp only [exSched, List.mem_cons, List.not_mem_nil, or_false] at he
  rcases he with h | h | h | h | h <;> subst h <;> first | trivial | decide
example : let s := (Waits.new exCfg).run exSched
    waiting s.q ≠ [] ∧ s.notifying = 0 ∧ s.waiters = [.asleep 5 0, .trying 1 0] := by decide

end Verif.Queue
