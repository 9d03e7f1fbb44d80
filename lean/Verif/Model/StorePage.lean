import Verif.Model.Store
import Verif.Model.Dashboard

/-!
# Model of the dashboard's page of the store

`/repo/src/brokers/store/http.rs`.  The query string is already decoded.  A moment is shown as its text (`to_rfc3339`, to the nanosecond); here it
is the moment itself, in nanoseconds since 1970.
-/

namespace Verif.Store

/-- `store/http.rs:33-38` `StoreQueryParams`. -/
structure Params where
  limit : Option Nat := none
  offset : Option Nat := none
  search : Option Str := none
  deriving DecidableEq, Repr

/-- The last second of `chrono::DateTime<Utc>`, 262142-12-31T23:59:59 (chrono 0.4.42). -/
def lastSecond : Nat := 8210266876799

/-- `store/http.rs:57-67`: what is shown for an expiry; `none`: the handler panics (`SystemTime + Duration` does not fit, or
`DateTime::from(SystemTime)` is beyond the last second).  `sys` is the wall clock. -/
def shownExpiry (now sys : Nat) : Option Nat → Option (Option Nat)
  | none => some none
  | some expiry =>
    let t := sys + (expiry - now)
    if t / nanos < 2 ^ 63 ∧ t / nanos ≤ lastSecond then some (some t) else none

/-- `store/http.rs:26-31` `KeyDetail`; the value is shown by `Dashboard.display`. -/
structure KeyDetail where
  key : Str
  value : Dashboard.Json
  expAt : Option Nat
  deriving DecidableEq, Repr

/-- `store/http.rs:54-73`: the entries one after the other; the wall clock is read for each. -/
def details (lossy : Bytes → Str) (parse : Bytes → Option Dashboard.Json) (now : Nat) (sys : Nat → Nat) : Nat → List KeyEntry → Option (List KeyDetail)
  | _, [] => some []
  | i, e :: es =>
    match shownExpiry now (sys i) e.expiresAt with
    | none => none
    | some x =>
      match details lossy parse now sys (i + 1) es with
      | none => none
      | some ds => some ({ key := e.key, value := Dashboard.display lossy parse e.payload, expAt := x } :: ds)

/-- `store/http.rs:44-76` `get_store`; the clock is read for the scan and after it.  `none`: the request gets no answer. -/
def page (lossy : Bytes → Str) (parse : Bytes → Option Dashboard.Json) (visited : Map) (p : Params) (scanned now : Nat) (sys : Nat → Nat) :
    Option (Nat × List KeyDetail) :=
  let limit := p.limit.getD 500
  let offset := p.offset.getD 0
  let s := scan visited limit offset p.search scanned
  (details lossy parse now sys 0 s.2).map (fun ds => (s.1, ds))

end Verif.Store
