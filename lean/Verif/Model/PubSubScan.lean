import Verif.Model.PubSub

/-!
# Model of the dashboard's view of publish/subscribe

`/repo/src/brokers/pub-sub/domain/radix_tree.rs:227-257` `collect_filtered_topics`, `manager.rs:200-249` `scan_topics` and the
paging of `http.rs:88-97`.

`HashMap` iteration orders are not specified by Rust: topics are sorted afterwards, so that the order matters only for entries
with the same path; the order of the wildcard lists is that of the model's association lists.  Payloads are shown as bytes (the
HTTP layer turns them into JSON, `payload.rs`).
-/

namespace Verif.PubSub

/-- `snapshot.rs:13-18` `TopicSnapshot`. -/
structure TopicInfo where
  path : Str
  subscribers : Nat
  retained : Option Bytes
  deriving DecidableEq, Repr

/-- `str::contains`. -/
def hasPart (needle : Str) : Str → Bool
  | [] => needle.isEmpty
  | c :: t => needle.isPrefixOf (c :: t) || hasPart needle t

/-- `search.map_or(true, |s| path.contains(s))`. -/
def found (search : Option Str) (path : Str) : Bool :=
  match search with
  | some s => hasPart s path
  | none => true

/-- `radix_tree.rs:228-240`: the entry of one node. -/
def topicHere (now : Nat) (search : Option Str) (path : Str) (subs : List Cid) (r : Option Retained) : List TopicInfo :=
  if path.isEmpty then []
  else if found search path && (!subs.isEmpty || r.isSome) then
    [⟨path, subs.length, match r with | some r => if r.expired now then none else some r.data | none => none⟩]
  else []

mutual

/-- `radix_tree.rs:227-257` `collect_filtered_topics`. -/
def collectTopics (now : Nat) (search : Option Str) (path : Str) : Node → List TopicInfo
  | .mk children plus hash subs r =>
    topicHere now search path subs r ++ collectTopicsKids now search path children
      ++ collectTopicsOpt now search (joinPath path plusS) plus ++ collectTopicsOpt now search (joinPath path hashS) hash

/-- The loop `for (child_name, child_node) in &self.children`. -/
def collectTopicsKids (now : Nat) (search : Option Str) (path : Str) : List (Str × Node) → List TopicInfo
  | [] => []
  | (key, child) :: t => collectTopics now search (joinPath path key) child ++ collectTopicsKids now search path t

/-- `if let Some(node) = …`. -/
def collectTopicsOpt (now : Nat) (search : Option Str) (path : Str) : Option Node → List TopicInfo
  | none => []
  | some n => collectTopics now search path n

end

/-- `String::cmp`: bytewise. -/
def strLe : Str → Str → Bool
  | [], _ => true
  | _ :: _, [] => false
  | a :: s, b :: t => if a < b then true else if b < a then false else strLe s t

/-- Insertion before the first entry that is not smaller. -/
def insertTopic (x : TopicInfo) : List TopicInfo → List TopicInfo
  | [] => [x]
  | y :: t => if strLe x.path y.path then x :: y :: t else y :: insertTopic x t

/-- `sort_by`, which is stable; the algorithm is not that of the standard library. -/
def sortTopics (l : List TopicInfo) : List TopicInfo := l.foldr insertTopic []

/-- `manager.rs:201-207`: all topics, sorted. -/
def topicList (now : Nat) (search : Option Str) (tree : Node) : List TopicInfo := sortTopics (collectTopics now search [] tree)

/-- `snapshot.rs:6-11`, `20-30`. -/
structure Snapshot where
  activeClients : Nat
  totalTopics : Nat
  topics : List TopicInfo
  multiLevel : List (Str × Cid)
  singleLevel : List (Str × Cid)
  deriving DecidableEq, Repr

/-- `sub.contains(c)` for one character. -/
def hasByte (c : UInt8) (s : Str) : Bool := s.any (· == c)

/-- `manager.rs:200-249` `scan_topics`.  `offset + limit` does not overflow where it matters: it is used only if `offset` is less
than the number of topics. -/
def scan (now limit offset : Nat) (search : Option Str) (tree : Node) (clients : List (Cid × List Str)) : Snapshot :=
  let all := topicList now search tree
  let subs := clients.flatMap (fun e => e.2.map (fun p => (p, e.1)))
  { activeClients := clients.length
    totalTopics := all.length
    topics := if offset < all.length then (all.take (min (offset + limit) all.length)).drop offset else []
    multiLevel := subs.filter (fun e => hasByte 35 e.1 && found search e.1)
    singleLevel := subs.filter (fun e => !hasByte 35 e.1 && hasByte 43 e.1 && found search e.1) }

/-- `http.rs:14-15`, `88-97` `get_pubsub`. -/
def dashboard (now : Nat) (limit offset : Option Nat) (search : Option Str) (tree : Node) (clients : List (Cid × List Str)) : Snapshot :=
  scan now (min (limit.getD 50) 500) (offset.getD 0) search tree clients

end Verif.PubSub
