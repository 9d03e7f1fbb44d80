import Verif.Model.Dashboard

/-!
# Model of size and kind of a value in the dashboard

`/repo/dashboard/src/lib/dashboard-value.ts`, used in `pages/dashboard/components/store/store.tsx:218-231`, `pubsub/pubsub.tsx:273-287`,
`queue/queue.tsx:335`, `stream/stream.tsx:248`.  A value is what `Dashboard.display` has made of a payload; texts are their UTF-8 bytes, as
in a `Blob`.
-/

namespace Verif.Dashboard

open Verif

/-- `dashboard-value.ts:9`: the text of a value that is not a string, without spaces; `compact` is `JSON.stringify` of the value with the
given text. -/
def valueText (compact : Str → Str) : Json → Str
  | .null => [110, 117, 108, 108]
  | .str s => s
  | .other t => compact t

/-- `dashboard-value.ts:7-11` `getDashboardValueSize`. -/
def valueSize (compact : Str → Str) (j : Json) : Nat := (valueText compact j).length

/-- `dashboard-value.ts:13-17` `getDashboardValueKind`: `true` is "BINARY DATA", `false` is "UTF-8 TEXT". -/
def valueBinary : Json → Bool
  | .str s => [48, 120].isPrefixOf s
  | _ => false

end Verif.Dashboard
