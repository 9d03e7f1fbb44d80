import Verif.Model.Dashboard
import Verif.Model.StorePage
import Verif.Model.Paths
import Verif.Model.QueueRpc

/-!
# From the dashboard's page over the browser to the handler

The addresses that `/repo/dashboard/src/pages/dashboard/components/{queue/queue,stream/stream,store/store,pubsub/pubsub}.tsx` ask for, what a browser makes of
them (URL Standard), and which handler of `/repo/src/transport/http/router.rs:6-15` gets what (axum 0.8.8, matchit 0.8.4, serde_urlencoded 0.7.1).

Simplifications.  Texts are in UTF-8.  Only addresses that begin with `/` and then something that is not a slash (all of them do).  A path is the list of its
parts, of which none has a `/`.  `lossy` is `String::from_utf8_lossy`.  Compression and the JSON of the answer are left out.
-/

namespace Verif.Dashboard

open Verif
open Verif.Rpc (ascii)

/-! ### The browser -/

/-- URL Standard, "basic URL parser", step 3: tabs and newlines are removed. -/
def cleaned (s : Str) : Str := s.filter (fun c => !(c == 9 || c == 10 || c == 13))

/-- An upper-case hexadecimal digit. -/
def hexUp (n : Nat) : UInt8 := UInt8.ofNat (if n < 10 then 0x30 + n else 0x37 + n)

/-- "percent-encode" a byte. -/
def escaped (c : UInt8) : Str := [37, hexUp (c.toNat / 16), hexUp (c.toNat % 16)]

/-- The "query percent-encode set" (with `'`, for `http`). -/
def querySet (c : UInt8) : Bool := decide (c.toNat ≤ 0x1F) || decide (c.toNat > 0x7E) || c == 32 || c == 34 || c == 35 || c == 60 || c == 62 || c == 39

/-- The "path percent-encode set". -/
def pathSet (c : UInt8) : Bool :=
  decide (c.toNat ≤ 0x1F) || decide (c.toNat > 0x7E) || c == 32 || c == 34 || c == 35 || c == 60 || c == 62 || c == 63 || c == 94 || c == 96 || c == 123 || c == 125

/-- "UTF-8 percent-encode" with a set. -/
def encodeWith (set : UInt8 → Bool) (s : Str) : Str := s.flatMap (fun c => if set c then escaped c else [c])

/-- "path state": a part ends at `/` or `\`. -/
def parts : Str → List Str
  | [] => [[]]
  | c :: t =>
    if c = 47 ∨ c = 92 then [] :: parts t
    else match parts t with
      | p :: ps => (c :: p) :: ps
      | [] => [[c]]

/-- "single-dot URL path segment": `.` or `%2e`. -/
def isDot (s : Str) : Bool := lower s == [46] || lower s == [37, 50, 101]

/-- "double-dot URL path segment". -/
def isDotDot (s : Str) : Bool :=
  lower s == [46, 46] || lower s == [46, 37, 50, 101] || lower s == [37, 50, 101, 46] || lower s == [37, 50, 101, 37, 50, 101]

/-- "path state", a part that is followed by a slash. -/
def walk (path : List Str) (s : Str) : List Str :=
  if isDotDot s then path.dropLast else if isDot s then path else path ++ [encodeWith pathSet s]

/-- "path state", the last part. -/
def walkLast (path : List Str) (s : Str) : List Str :=
  if isDotDot s then path.dropLast ++ [[]] else if isDot s then path ++ [[]] else path ++ [encodeWith pathSet s]

/-- All the parts. -/
def resolve (ps : List Str) : List Str :=
  match ps.getLast? with
  | none => []
  | some l => walkLast (ps.dropLast.foldl walk []) l

/-- What is sent to the server. -/
structure Target where
  path : List Str
  query : Str
  deriving DecidableEq, Repr

/-- What `fetch` makes of an address: the path ends at the first `?` or `#`, the query at the first `#`. -/
def browse (ref : Str) : Target :=
  let s := (cleaned ref).takeWhile (· != 35)
  { path := resolve (parts ((s.takeWhile (· != 63)).drop 1)), query := encodeWith querySet ((s.dropWhile (· != 63)).drop 1) }

/-! ### The server -/

/-- `percent_encoding::percent_decode`. -/
def unescape : Str → Str
  | c :: a :: b :: r =>
    if c = 37 then
      match Wire.nibble a, Wire.nibble b with
      | some x, some y => UInt8.ofNat (x * 16 + y) :: unescape r
      | _, _ => c :: unescape (a :: b :: r)
    else c :: unescape (a :: b :: r)
  | s => s

/-- The pieces of a text between the bytes `c`. -/
def pieces (c : UInt8) : Str → List Str
  | [] => [[]]
  | b :: t =>
    if b = c then [] :: pieces c t
    else match pieces c t with
      | p :: ps => (b :: p) :: ps
      | [] => [[b]]

/-- `form_urlencoded`: `+` is a space, then escapes. -/
def formText (lossy : Bytes → Str) (s : Str) : Str := lossy (unescape (s.map (fun c => if c = 43 then 32 else c)))

/-- `form_urlencoded::parse`. -/
def fields (lossy : Bytes → Str) (q : Str) : List (Str × Str) :=
  ((pieces 38 q).filter (fun p => !p.isEmpty)).map (fun p => (formText lossy (p.takeWhile (· != 61)), formText lossy ((p.dropWhile (· != 61)).drop 1)))

/-- A field that may be missing; `none`: the request is refused (400), because the field comes twice or is not what it should be. -/
def field {α : Type} (read : Str → Option α) (name : String) (fs : List (Str × Str)) : Option (Option α) :=
  match fs.filter (fun f => f.1 == ascii name) with
  | [] => some none
  | [f] => (read f.2).map some
  | _ => none

/-- What the server does: it runs a handler, refuses, or answers with a file. -/
inductive Page where
  | queues
  | queueMessages (name : Str) (q : QueueQuery)
  | topics
  | topicMessages (name : Str) (q : StreamQuery)
  | store (p : Store.Params)
  | pubsub (limit offset : Option Nat) (search : Option Str)
  /-- 400 -/
  | refused
  /-- `assets.rs` `static_handler` -/
  | file (path : List Str)
  deriving DecidableEq, Repr

/-- `queue/http.rs:102-108`: `state` must be there. -/
def queueQuery (fs : List (Str × Str)) : Option QueueQuery :=
  match field some "state" fs, field Paths.parseU64 "offset" fs, field Paths.parseU64 "limit" fs, field some "search" fs with
  | some (some state), some offset, some limit, some search => some { state, offset, limit, search }
  | _, _, _, _ => none

/-- `stream/http.rs:81-85`. -/
def streamQuery (fs : List (Str × Str)) : Option StreamQuery :=
  match field Paths.parseU64 "from" fs, field Paths.parseU64 "limit" fs with
  | some f, some limit => some { «from» := f, limit }
  | _, _ => none

/-- `store/http.rs:33-38`, `pub-sub/http.rs:75-80`. -/
def searchQuery (fs : List (Str × Str)) : Option Store.Params :=
  match field Paths.parseU64 "limit" fs, field Paths.parseU64 "offset" fs, field some "search" fs with
  | some limit, some offset, some search => some { limit, offset, search }
  | _, _, _ => none

/-- `router.rs:7-14` and the `routes` of the four brokers: `{name}` is one part that is not empty; `Path<String>` is unescaped and must be UTF-8. -/
def serve (lossy : Bytes → Str) (t : Target) : Page :=
  let fs := fields lossy t.query
  match t.path with
  | [a, b] =>
    if a = ascii "api" ∧ b = ascii "queue" then .queues
    else if a = ascii "api" ∧ b = ascii "stream" then .topics
    else if a = ascii "api" ∧ b = ascii "store" then match searchQuery fs with | some p => .store p | none => .refused
    else if a = ascii "api" ∧ b = ascii "pubsub" then match searchQuery fs with | some p => .pubsub p.limit p.offset p.search | none => .refused
    else .file t.path
  | [a, b, x, m] =>
    if a = ascii "api" ∧ b = ascii "queue" ∧ x ≠ [] ∧ m = ascii "messages" then
      if Wire.validUtf8 (unescape x) then match queueQuery fs with | some q => .queueMessages (unescape x) q | none => .refused
      else .refused
    else if a = ascii "api" ∧ b = ascii "stream" ∧ x ≠ [] ∧ m = ascii "messages" then
      if Wire.validUtf8 (unescape x) then match streamQuery fs with | some q => .topicMessages (unescape x) q | none => .refused
      else .refused
    else .file t.path
  | _ => .file t.path

/-! ### The pages -/

/-- `queue.tsx:70`; `view` is `pending`, `inflight` or `dlq` (`queue.tsx:69`). -/
def queueAddress (name view : Str) (offset : Nat) : Str :=
  ascii "/api/queue/" ++ name ++ (ascii "/messages?state=" ++ view ++ ascii "&offset=" ++ Paths.digits offset ++ ascii "&limit=50")

/-- `URLSearchParams`: the "application/x-www-form-urlencoded serializer". -/
def formEncode (s : Str) : Str :=
  s.flatMap (fun c =>
    if c = 32 then [43]
    else if (48 ≤ c.toNat ∧ c.toNat ≤ 57) ∨ (65 ≤ c.toNat ∧ c.toNat ≤ 90) ∨ (97 ≤ c.toNat ∧ c.toNat ≤ 122) ∨ c = 42 ∨ c = 45 ∨ c = 46 ∨ c = 95 then [c]
    else escaped c)

/-- `stream.tsx:56-58`. -/
def streamAddress (name : Str) (from? : Option Nat) : Str :=
  ascii "/api/stream/" ++ name ++ (ascii "/messages?limit=50" ++ match from? with | some n => ascii "&from=" ++ Paths.digits n | none => [])

/-- `store.tsx:46-51`; `limit` is not 0. -/
def storeAddress (search : Str) (limit offset : Nat) : Str :=
  ascii "/api/store?" ++ ((if search = [] then [] else ascii "search=" ++ formEncode search ++ ascii "&") ++ (ascii "limit=" ++ Paths.digits limit) ++
    (if offset = 0 then [] else ascii "&offset=" ++ Paths.digits offset))

/-- `pubsub.tsx:51-53`. -/
def pubsubAddress (search : Str) (offset : Nat) : Str :=
  ascii "/api/pubsub?" ++ (ascii "limit=50" ++ ascii "&offset=" ++ Paths.digits offset ++ (if search = [] then [] else ascii "&search=" ++ formEncode search))

end Verif.Dashboard
