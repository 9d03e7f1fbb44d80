import Verif.Model.SdkConnection

/-!
# Model of `exists` in the client library

`/repo/sdk/ts/src/brokers/queue.ts:30-37`, `219-221`, `/repo/sdk/ts/src/brokers/stream.ts:184-191`.
-/

namespace Verif.Sdk

/-- `queue.ts:31-36`, `stream.ts:185-190`: the boolean that `exists` resolves to; `o` is what becomes of its request.  The promise of `send`
resolves with an answer of any status but error (`connection.ts:230-241`), and is rejected in every other case, which `catch` turns
into `false`. -/
def existsResult : Outcome → Bool
  | .answer status _ => status == 0
  | .notConnected | .closed | .timeout | .threw => false

end Verif.Sdk
