import Verif.Model.DashboardPages

/-!
# Specification: paging
-/

namespace Verif.Dashboard

open Verif

/-- Pressing "Next" from the first page on, until it is disabled, shows everything, once and in order. -/
def ShowsAll {α : Type} (size : Nat) (total : Nat → Nat) (page : Nat → List α) (all : List α) : Prop :=
  let place k := offsetAfter size total (List.replicate k .next)
  ∃ n, (∀ k < n, nextOn size (total (place k)) (place k) = true) ∧ nextOn size (total (place n)) (place n) = false ∧
    (List.range (n + 1)).flatMap (fun k => page (place k)) = all

/-- Whatever was pressed: "Next" can be pressed exactly if something comes after the page, "Prev" exactly if something comes before it, and the
page is not empty (unless everything is). -/
def Oriented {α : Type} (size : Nat) (total : Nat → Nat) (page : Nat → List α) (all : List α) : Prop :=
  ∀ cs, ∃ before after, all = before ++ page (offsetAfter size total cs) ++ after ∧
    (nextOn size (total (offsetAfter size total cs)) (offsetAfter size total cs) = true ↔ after ≠ []) ∧
    (prevOn (offsetAfter size total cs) = true ↔ before ≠ []) ∧ (all ≠ [] → page (offsetAfter size total cs) ≠ [])

/-- Whatever was pressed: "Next" leads to what comes directly after the page, and "Prev" to what comes directly before it. -/
def Adjacent {α : Type} (size : Nat) (total : Nat → Nat) (page : Nat → List α) (all : List α) : Prop :=
  ∀ cs, let o := offsetAfter size total cs
    (nextOn size (total o) o = true → ∃ before after, all = before ++ page o ++ page (offsetAfter size total (cs ++ [.next])) ++ after) ∧
    (prevOn o = true → ∃ before after, all = before ++ page (offsetAfter size total (cs ++ [.prev])) ++ page o ++ after)

end Verif.Dashboard
