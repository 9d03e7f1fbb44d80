import Verif.Proofs.DashboardPages
import Verif.Props.Dashboard
import Verif.Props.PubSubScan
import Verif.Props.StorePage

/-!
# Property C130: going through the pages of the dashboard
-/

namespace Verif.Dashboard

open Verif
open Verif.Queue (QInner waiting inFlight deadLetters)

/-- The messages of a queue that a view is about, by their ids. -/
def View.all (q : QInner) : View → List Nat
  | .pending => (waiting q).map (·.id)
  | .inflight => (inFlight q).map (·.id)
  | .dead => (deadLetters q).map (·.id)

theorem queue_page (lossy : Bytes → Str) (q : QInner) (v : View) (o : Nat) :
    (queueMessages lossy (some q) (v.query o)).total = (v.all q).length ∧
    (queueMessages lossy (some q) (v.query o)).ids = ((v.all q).drop o).take pageSize := by
  have hf : ∀ l : List Queue.Msg, l.filter (matches? lossy none) = l := fun l => List.filter_eq_self.2 (fun _ _ => rfl)
  have hl : min pageSize 1000 = pageSize := by decide
  cases v with
  | pending =>
    have e1 : lower wPending ≠ wDlq := by decide
    have e2 : lower (lower wPending) = wPending := by decide
    have key : queueMessages lossy (some q) (View.pending.query o) = .messages (((waiting q).drop o).take pageSize) (waiting q).length := by
      simp only [queueMessages, View.query, View.state, if_neg e1, if_pos e2, Option.getD_some, hl, (Queue.C30_listing q _ _ _).1, hf]
    rw [key]
    simp only [QueueReply.total, QueueReply.ids, View.all, List.length_map, List.map_take, List.map_drop, and_self]
  | inflight =>
    have e1 : lower wInflight ≠ wDlq := by decide
    have e2 : lower (lower wInflight) ≠ wPending := by decide
    have e3 : lower (lower wInflight) = wInflight := by decide
    have key : queueMessages lossy (some q) (View.inflight.query o) = .messages (((inFlight q).drop o).take pageSize) (inFlight q).length := by
      simp only [queueMessages, View.query, View.state, if_neg e1, if_neg e2, if_pos e3, Option.getD_some, hl, (Queue.C30_listing q _ _ _).2, hf]
    rw [key]
    simp only [QueueReply.total, QueueReply.ids, View.all, List.length_map, List.map_take, List.map_drop, and_self]
  | dead =>
    have e1 : lower wDlq = wDlq := by decide
    have key : queueMessages lossy (some q) (View.dead.query o) = .dead (((deadLetters q).drop o).take pageSize) (deadLetters q).length := by
      rw [C89_dead_partial lossy q (View.dead.query o) e1 rfl]
      simp only [View.query, Option.getD_some, hl]
    rw [key]
    simp only [QueueReply.total, QueueReply.ids, View.all, List.length_map, List.map_take, List.map_drop, and_self]

/-- **C130** for queues.  While nothing happens to the queue: pressing "Next" until it is disabled shows all waiting messages (messages in
flight, dead letters), once and in order; and wherever one is, the buttons can be pressed exactly if there is something there, and lead to what comes next to it. -/
theorem C130_queue (lossy : Bytes → Str) (q : QInner) (v : View) :
    let ask o := queueMessages lossy (some q) (v.query o)
    ShowsAll pageSize (fun o => (ask o).total) (fun o => (ask o).ids) (v.all q) ∧
    Oriented pageSize (fun o => (ask o).total) (fun o => (ask o).ids) (v.all q) ∧
    Adjacent pageSize (fun o => (ask o).total) (fun o => (ask o).ids) (v.all q) :=
  ⟨showsAll (by decide) (fun o => (queue_page lossy q v o).1) (fun o => (queue_page lossy q v o).2),
    oriented (by decide) (fun o => (queue_page lossy q v o).1) (fun o => (queue_page lossy q v o).2),
    adjacent (fun o => (queue_page lossy q v o).2)⟩

/-- **C130** for the topics of publish/subscribe, with or without a search. -/
theorem C130_pubsub (dflt : Nat) (s0 : PubSub.State) (h : List PubSub.Op) (now : Nat) (search : Option Str) :
    let ask o := PubSub.shown dflt s0 h now (some pageSize) (some o) search
    ∃ all : List PubSub.TopicInfo,
      all.Perm ((PubSub.collectTopics now none [] (PubSub.run dflt s0 h).1.tree).filter (fun x => PubSub.found search x.path)) ∧
      ShowsAll pageSize (fun o => (ask o).totalTopics) (fun o => (ask o).topics) all ∧
      Oriented pageSize (fun o => (ask o).totalTopics) (fun o => (ask o).topics) all ∧
      Adjacent pageSize (fun o => (ask o).totalTopics) (fun o => (ask o).topics) all := by
  intro ask
  obtain ⟨all, h1, _, h3, h4⟩ := PubSub.C76_pages dflt s0 h now search pageSize (by decide) (by decide)
  have hall : all = PubSub.topicList now search (PubSub.run dflt s0 h).1.tree := by
    rw [← h4 all.length (by simp [pageSize]; omega)]
    obtain ⟨all', _, _, h3', h4'⟩ := PubSub.C76_pages dflt s0 h now search 500 (by decide) (by decide)
    have hlen : all.length = (PubSub.topicList now search (PubSub.run dflt s0 h).1.tree).length := (h3 none none).symm
    generalize hn : all.length = n at *
    have key : ∀ k, PubSub.pages dflt s0 h now search pageSize k = (PubSub.topicList now search (PubSub.run dflt s0 h).1.tree).take (k * pageSize) := by
      intro k
      induction k with
      | zero => simp [PubSub.pages]
      | succ k ih =>
        rw [PubSub.pages, ih, Nat.succ_mul, List.take_add]
        congr 1
        show (PubSub.shown dflt s0 h now (some pageSize) (some (k * pageSize)) search).topics = _
        simp only [PubSub.shown, PubSub.dashboard, PubSub.scan, Option.getD_some]
        have : min pageSize 500 = pageSize := by decide
        rw [this]
        generalize PubSub.topicList now search (PubSub.run dflt s0 h).1.tree = l
        split
        · rw [List.drop_take]
          rename_i hlt
          by_cases hle : k * pageSize + pageSize ≤ l.length
          · rw [Nat.min_eq_left hle, Nat.add_sub_cancel_left]
          · rw [Nat.min_eq_right (by omega), List.take_of_length_le (by simp), List.take_of_length_le (by simp; omega)]
        · rename_i hge
          rw [List.drop_eq_nil_of_le (by omega), List.take_nil]
    rw [key, List.take_of_length_le]
    rw [← hlen]
    simp [pageSize]; omega
  subst hall
  have hp : ∀ o, (ask o).topics = ((PubSub.topicList now search (PubSub.run dflt s0 h).1.tree).drop o).take pageSize := by
    intro o
    simp only [ask, PubSub.shown, PubSub.dashboard, PubSub.scan, Option.getD_some]
    have : min pageSize 500 = pageSize := by decide
    rw [this]
    generalize PubSub.topicList now search (PubSub.run dflt s0 h).1.tree = l
    split
    · rw [List.drop_take]
      by_cases hle : o + pageSize ≤ l.length
      · rw [Nat.min_eq_left hle, Nat.add_sub_cancel_left]
      · rw [Nat.min_eq_right (by omega), List.take_of_length_le (by simp), List.take_of_length_le (by simp; omega)]
    · rw [List.drop_eq_nil_of_le (by omega), List.take_nil]
  exact ⟨_, h1, showsAll (by decide) (fun o => h3 _ _) hp, oriented (by decide) (fun o => h3 _ _) hp, adjacent hp⟩

/-- **C130** for the store (partial: nothing is searched for, and no key has expired that is still in the map). -/
theorem C130_store_partial (visited : Store.Map) (now : Nat) (hl : ∀ e ∈ visited, ∀ x, e.2.expiresAt = some x → now < x) :
    let ask o := Store.scan visited storePageSize o none now
    ShowsAll storePageSize (fun o => (ask o).1) (fun o => (ask o).2.map (·.key)) (visited.map (·.1)) ∧
    Oriented storePageSize (fun o => (ask o).1) (fun o => (ask o).2.map (·.key)) (visited.map (·.1)) ∧
    Adjacent storePageSize (fun o => (ask o).1) (fun o => (ask o).2.map (·.key)) (visited.map (·.1)) := by
  intro ask
  have hkeys : ∀ l : Store.Map, (∀ e ∈ l, e ∈ visited) → (l.filterMap (Store.liveEntry now)).map (·.key) = l.map (·.1) := by
    intro l
    induction l with
    | nil => intro _; rfl
    | cons e l ih =>
      intro h
      have he : ∃ k, Store.liveEntry now e = some k ∧ k.key = e.1 := by
        unfold Store.liveEntry
        cases hx : e.2.expiresAt with
        | none => exact ⟨_, rfl, rfl⟩
        | some x =>
          have := hl e (h e (by simp)) x hx
          simp only
          rw [if_neg (by omega)]
          exact ⟨_, rfl, rfl⟩
      obtain ⟨k, h1, h2⟩ := he
      rw [List.filterMap_cons_some h1, List.map_cons, List.map_cons, h2, ih (fun x hx => h x (List.mem_cons_of_mem _ hx))]
  have hp : ∀ o, (ask o).2.map (·.key) = ((visited.map (·.1)).drop o).take storePageSize := by
    intro o
    simp only [ask, Store.scan]
    rw [List.filter_eq_self.2 (fun _ _ => rfl), hkeys _ (fun e he => List.mem_of_mem_drop (List.mem_of_mem_take he)), List.map_take, List.map_drop]
  have ht : ∀ o, (ask o).1 = (visited.map (·.1)).length := fun o => by simp [ask, Store.scan]
  exact ⟨showsAll (by decide) ht hp, oriented (by decide) ht hp, adjacent hp⟩

/-- **C130 is violated** by a search in the store: if there are more than 500 keys, "Next" can be pressed on the first page, although the
search has found nothing (and so on, as many pages as there would be without the search). -/
theorem C130_store_violated (visited : Store.Map) (now : Nat) (text : Str) (hn : storePageSize < visited.length)
    (hf : ∀ e ∈ visited, Store.contains e.1 text = false) :
    let ask o := Store.scan visited storePageSize o (some text) now
    (∀ o, (ask o).2 = []) ∧ nextOn storePageSize (ask 0).1 0 = true ∧ offsetAfter storePageSize (fun o => (ask o).1) [.next] = storePageSize := by
  intro ask
  have h1 : ∀ o, (ask o).2 = [] := by
    intro o
    simp only [ask, Store.scan]
    rw [List.filter_eq_nil_iff.2 (fun e he => by simp [hf e he])]
    simp
  have h2 : nextOn storePageSize (ask 0).1 0 = true := by simpa [nextOn, ask, Store.scan] using hn
  refine ⟨h1, h2, ?_⟩
  simp only [offsetAfter, List.foldl_cons, List.foldl_nil, turn, h2, if_true, Nat.zero_add]

/-! ### Streams -/

theorem current_some (last f : Nat) : current last (some f) = f := rfl
theorem current_none (last : Nat) : current last none = max (last - 49) 1 := rfl

theorem streamBrowse_snoc (last : Nat) (cs : List StreamClick) (c : StreamClick) :
    streamBrowse last (cs ++ [c]) = streamTurn last (streamBrowse last cs) c := by
  simp [streamBrowse]

/-- Where `k` presses of "Older" lead. -/
theorem older_at (last : Nat) (k : Nat) :
    current last (streamBrowse last (List.replicate k .older)) = max (last - 49 - k * 50) 1 := by
  induction k with
  | zero => simp [streamBrowse, current_none]
  | succ k ih =>
    rw [List.replicate_succ', streamBrowse_snoc]
    by_cases h : hasOlder (current last (streamBrowse last (List.replicate k .older))) = true
    · simp only [streamTurn, h, if_true, current_some]
      rw [ih, Nat.succ_mul]
      simp only [pageSize]
      omega
    · simp only [streamTurn, h, Bool.false_eq_true, if_false]
      rw [ih]
      simp only [hasOlder, decide_eq_true_eq, ih] at h
      rw [Nat.succ_mul]
      omega

section
variable {crc : Bytes → Nat} {base : Nat} {H : List Stream.Msg} {now : Nat} {t : Stream.Topic} (hst : Stream.StartsWith crc base H now t)
include hst

/-- **C130** for streams (partial: pages answered from memory; "Newer" can leave out the last message, `C130_newer_violated`).  While nothing
happens to the topic, every message that retention has left is on some page that is reached by pressing "Older", which can be pressed until then. -/
theorem C130_older_partial (es : List Stream.Ev) (i : Nat) (m : Stream.Msg) (hm : (H ++ Stream.published t.log.next es)[i]? = some m)
    (hhead : (t.run crc es).log.head ≤ base + i) :
    let last := lastSeq (t.run crc es)
    let place k := current last (streamBrowse last (List.replicate k .older))
    ∃ k, (∀ j < k, hasOlder (place j) = true) ∧
      ∀ id ms, ((t.run crc es).step crc (.read (place k) pageSize)).2 = .readReply id ms → m ∈ StreamQuery.shown ms := by
  intro last place
  have hlast : last = base + (H ++ Stream.published t.log.next es).length - 1 := C91_last hst es
  have hbase : 1 ≤ base := hst.inv.2.2.2
  have hi : i < (H ++ Stream.published t.log.next es).length := (List.getElem?_eq_some_iff.1 hm).1
  have hplace : ∀ k, place k = max (last - 49 - k * 50) 1 := older_at last
  refine ⟨(last - (base + i)) / 50, ?_, ?_⟩
  · intro j hj
    rw [hplace]
    simp only [hasOlder, decide_eq_true_eq]
    omega
  · intro id ms h
    have hms := Stream.C39_read_now hst es _ _ id ms h
    rw [StreamQuery.shown, List.mem_reverse, hms, hplace]
    generalize (t.run crc es).log.head = hd at *
    generalize H ++ Stream.published t.log.next es = L at *
    rw [List.mem_iff_getElem?]
    refine ⟨i - (max (max (last - 49 - (last - (base + i)) / 50 * 50) 1) hd - base), ?_⟩
    rw [List.getElem?_take, if_pos (by simp only [pageSize]; omega), List.getElem?_drop]
    rw [← hm]
    congr 1
    omega

end

/-- **C130**: "Newer" can be pressed although nothing is newer: never.  It cannot be pressed although one message is newer: exactly if this
message is the only one (`cur` is the first number of the page, `last` the last number of the topic). -/
theorem C130_newer_only (cur last : Nat) :
    (hasNewer cur last = true → ∃ s ≤ last, cur + pageSize ≤ s) ∧
    ((hasNewer cur last = false ∧ ∃ s ≤ last, cur + pageSize ≤ s) ↔ last = cur + pageSize) := by
  simp only [hasNewer, decide_eq_true_eq, decide_eq_false_iff_not]
  refine ⟨fun h => ⟨last, Nat.le_refl _, by omega⟩, ?_, fun h => ⟨by omega, last, Nat.le_refl _, by omega⟩⟩
  rintro ⟨h, s, h1, h2⟩
  omega

/-- Where "Newer" leads from the first message on. -/
theorem newer_at {last n : Nat} (hlast : last = n * 50 + 51) (k : Nat) (hk : k ≤ n) :
    current last (streamBrowse last (List.replicate (n + 1) .older ++ List.replicate k .newer)) = k * 50 + 1 := by
  induction k with
  | zero =>
    rw [List.replicate_zero, List.append_nil, older_at]
    omega
  | succ k ih =>
    have ih := ih (by omega)
    rw [List.replicate_succ' (n := k), ← List.append_assoc, streamBrowse_snoc]
    generalize streamBrowse last (List.replicate (n + 1) .older ++ List.replicate k .newer) = f at ih
    have hn : hasNewer (current last f) last = true := by
      rw [ih]; exact decide_eq_true (by show k * 50 + 1 + 50 < last; omega)
    rw [streamTurn, if_pos hn, current_some, ih]
    simp only [pageSize]
    omega

/-- **C130 is violated** by streams with 51, 101, 151, ... messages.  From the first message on, one can press "Newer" until it is disabled; the
last message is not on any of these pages: they end with the number before it. -/
theorem C130_newer_violated (n : Nat) (last : Nat) (hl : last = n * 50 + 51) :
    let place k := current last (streamBrowse last (List.replicate (n + 1) .older ++ List.replicate k .newer))
    place 0 = 1 ∧ (∀ k < n, hasNewer (place k) last = true) ∧ hasNewer (place n) last = false ∧ ∀ k ≤ n, place k + pageSize - 1 < last := by
  intro place
  have hplace : ∀ k ≤ n, place k = k * 50 + 1 := newer_at hl
  refine ⟨hplace 0 (by omega), ?_, ?_, ?_⟩
  · intro k hk
    rw [hplace k (by omega)]; exact decide_eq_true (by show k * 50 + 1 + 50 < last; omega)
  · rw [hplace n (by omega)]; exact decide_eq_false (by show ¬ n * 50 + 1 + 50 < last; omega)
  · intro k hk
    rw [hplace k hk]; simp only [pageSize]; omega

/-! ### Cases -/

/-- A queue with two waiting messages. -/
example : (View.pending.all Queue.exQ).length = 2 := by decide

/-- 120 keys on pages of 50: "Next" twice, "Prev" once. -/
example : offsetAfter 50 (fun _ => 120) [.next, .next, .next, .prev] = 50 := by decide

/-- 501 keys "b", "bb", ...: none contains "a". -/
example : storePageSize < ((List.range 501).map (fun k => (List.replicate (k + 1) (98 : UInt8), (⟨[], none⟩ : Store.Entry)))).length ∧
    ∀ e ∈ (List.range 501).map (fun k => (List.replicate (k + 1) (98 : UInt8), (⟨[], none⟩ : Store.Entry))), ∀ x, e.2.expiresAt = some x → 7 < x := by
  refine ⟨by simp [storePageSize], ?_⟩
  simp only [List.mem_map, List.mem_range]
  rintro e ⟨k, _, rfl⟩ x h
  cases h

/-- Three messages: the first page is answered from memory and has the first of them. -/
example :
    let es : List Stream.Ev := [.publish 5 [1], .publish 6 [2], .publish 7 [3]]
    Stream.StartsWith Stream.Ex.sum 1 [] 0 Stream.Ex.tL ∧ ([] ++ Stream.published Stream.Ex.tL.log.next es)[0]? = some ⟨1, 5, [1]⟩ ∧
    (Stream.Ex.tL.run Stream.Ex.sum es).log.head ≤ 1 + 0 ∧
    (((Stream.Ex.tL.run Stream.Ex.sum es).step Stream.Ex.sum (.read (current 3 none) pageSize)).2 matches
      .readReply _ [⟨1, 5, [1]⟩, ⟨2, 6, [2]⟩, ⟨3, 7, [3]⟩]) :=
  ⟨Stream.Ex.startsL, by decide, by decide, by decide⟩

/-- 101 messages: "Older" twice and "Newer" once lead to messages 51 to 100, and "Newer" is disabled. -/
example : current 101 (streamBrowse 101 [.older, .older, .newer]) = 51 ∧ hasNewer 51 101 = false := by decide

end Verif.Dashboard
