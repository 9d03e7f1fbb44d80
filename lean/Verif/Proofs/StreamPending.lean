import Verif.Proofs.StreamStart

/-!
# Requests that wait for the storage task
-/

namespace Verif.Stream

open Group

/-! ### What answers are made of -/

theorem issue_mem {g : Group} {c : Str} {now : Nat} {m x : Msg} (h : x ∈ (issue g c now m).2.toList) : x = m := by
  unfold issue at h
  split at h
  · simp at h
  · simpa using h

theorem issue_len (g : Group) (c : Str) (now : Nat) (m : Msg) : (issue g c now m).2.toList.length ≤ 1 := by
  unfold issue
  split <;> simp

theorem readFromLog_mem {log : List Msg} {rs s : Nat} {m : Msg} (h : readFromLog log rs s = some m) : m ∈ log := by
  unfold readFromLog at h
  split at h
  · cases h
  · exact List.mem_of_getElem? h

theorem redeliverLoop_any (a : Ask) (budget : Nat) (q : List Nat) : ∀ (g : Group) (acc : List Msg),
    (∀ m ∈ (redeliverLoop a budget q g acc).2, m ∈ acc ∨ m ∈ a.log)
      ∧ (acc.length ≤ budget → (redeliverLoop a budget q g acc).2.length ≤ budget) := by
  induction q with
  | nil => intro g acc; exact ⟨fun m hm => .inl hm, fun h => h⟩
  | cons s q ih =>
    intro g acc
    unfold redeliverLoop
    split
    · next hlt =>
      split
      · exact ih _ acc
      · cases hr : readFromLog a.log a.ramStart s with
        | none => exact ⟨fun m hm => .inl hm, fun h => h⟩
        | some x =>
          simp only
          obtain ⟨h1, h2⟩ := ih (issue { g with redeliver := q } a.consumer a.now x).1
            (acc ++ (issue { g with redeliver := q } a.consumer a.now x).2.toList)
          refine ⟨fun m hm => ?_, fun _ => h2 ?_⟩
          · rcases h1 m hm with h | h
            · rcases List.mem_append.1 h with h | h
              · exact .inl h
              · rw [issue_mem h]; exact .inr (readFromLog_mem hr)
            · exact .inr h
          · have := issue_len { g with redeliver := q } a.consumer a.now x
            rw [List.length_append]; omega
    · exact ⟨fun m hm => .inl hm, fun h => h⟩

theorem freshLoop_any (a : Ask) (budget n : Nat) : ∀ (g : Group) (acc : List Msg),
    (∀ m ∈ (freshLoop a budget n g acc).2, m ∈ acc ∨ m ∈ a.log)
      ∧ (acc.length ≤ budget → (freshLoop a budget n g acc).2.length ≤ budget) := by
  induction n with
  | zero => intro g acc; exact ⟨fun m hm => .inl hm, fun h => h⟩
  | succ n ih =>
    intro g acc
    unfold freshLoop
    split
    · next hlt =>
      cases hr : readFromLog a.log a.ramStart (max g.next a.head) with
      | none => exact ⟨fun m hm => .inl hm, fun h => h⟩
      | some x =>
        simp only
        obtain ⟨h1, h2⟩ := ih (issue { skipRemoved g a.head with next := max g.next a.head + 1 } a.consumer a.now x).1
          (acc ++ (issue { skipRemoved g a.head with next := max g.next a.head + 1 } a.consumer a.now x).2.toList)
        refine ⟨fun m hm => ?_, fun _ => h2 ?_⟩
        · rcases h1 m hm with h | h
          · rcases List.mem_append.1 h with h | h
            · exact .inl h
            · rw [issue_mem h]; exact .inr (readFromLog_mem hr)
          · exact .inr h
        · have := issue_len { skipRemoved g a.head with next := max g.next a.head + 1 } a.consumer a.now x
          rw [List.length_append]; omega
    · exact ⟨fun m hm => .inl hm, fun h => h⟩

theorem deliver_any (g : Group) (a : Ask) (limit : Nat) :
    (∀ m ∈ (deliver g a limit).2, m ∈ a.log) ∧ (deliver g a limit).2.length ≤ limit := by
  unfold deliver
  split
  · exact ⟨by simp, by simp⟩
  · obtain ⟨h1, h2⟩ := redeliverLoop_any a (min limit (g.maxPending - g.pending.length)) g.redeliver g []
    obtain ⟨h3, h4⟩ := freshLoop_any a (min limit (g.maxPending - g.pending.length)) (a.log.length + 1)
      (redeliverLoop a (min limit (g.maxPending - g.pending.length)) g.redeliver g []).1
      (redeliverLoop a (min limit (g.maxPending - g.pending.length)) g.redeliver g []).2
    refine ⟨fun m hm => ?_, ?_⟩
    · rcases h3 m hm with h | h
      · rcases h1 m h with h | h
        · cases h
        · exact h
      · exact h
    · have := h4 (h2 (by simp))
      omega

theorem coldLoop_any (c : Str) (now head : Nat) (msgs : List Msg) : ∀ (g : Group) (acc : List Msg),
    ∃ ms, (Group.coldLoop c now head msgs g acc).2 = acc ++ ms ∧ ms.Sublist msgs := by
  induction msgs with
  | nil => intro g acc; exact ⟨[], by simp [Group.coldLoop], by simp⟩
  | cons m msgs ih =>
    intro g acc
    unfold Group.coldLoop
    split
    · exact ⟨[], by simp, by simp⟩
    · split
      · obtain ⟨ms, h1, h2⟩ := ih g acc
        exact ⟨ms, h1, h2.cons _⟩
      · split
        · obtain ⟨ms, h1, h2⟩ := ih
            (issue (coldReady { g with redeliver := g.redeliver.erase m.seq } head m.seq) c now m).1
            (acc ++ (issue (coldReady { g with redeliver := g.redeliver.erase m.seq } head m.seq) c now m).2.toList)
          refine ⟨(issue (coldReady { g with redeliver := g.redeliver.erase m.seq } head m.seq) c now m).2.toList ++ ms,
            by rw [h1, List.append_assoc], ?_⟩
          unfold issue
          split
          · simpa using h2.cons m
          · simpa using h2.cons_cons m
        · obtain ⟨ms, h1, h2⟩ := ih (coldReady g head m.seq) acc
          exact ⟨ms, h1, h2.cons _⟩

/-! ### Limits of reads from the files -/

theorem readLogN_len (crc : Bytes → Nat) (start limit n : Nat) : ∀ (b : Bytes) (acc : List Msg), acc.length < limit →
    (readLogN crc start limit n b acc).length ≤ limit := by
  induction n with
  | zero => intro b acc h; exact Nat.le_of_lt h
  | succ n ih =>
    intro b acc h
    rw [readLogN]
    cases takeRecord b with
    | none => exact Nat.le_of_lt h
    | some r =>
      obtain ⟨s, c, rest⟩ := r
      simp only
      split
      · exact ih rest acc h
      · split
        · exact ih rest acc h
        · split
          · split
            · simp only [List.length_append, List.length_singleton]; omega
            · next hl => exact ih rest _ (by omega)
          · exact ih rest acc h

theorem coldLoop_len (crc : Bytes → Nat) (ss : List Seg) : ∀ (cur rem : Nat), (coldLoop crc ss cur rem).length ≤ rem := by
  induction ss with
  | nil => intro cur rem; simp [coldLoop]
  | cons s ss ih =>
    intro cur rem
    unfold coldLoop
    split
    · simp
    · have h1 : (readLog crc s.data cur rem).length ≤ rem := readLogN_len crc cur rem _ _ _ (by simp; omega)
      have h2 := ih (advanceFrom cur (readLog crc s.data cur rem)) (rem - (readLog crc s.data cur rem).length)
      rw [List.length_append]; omega

theorem coldRead_len (crc : Bytes → Nat) (ss : List Seg) (fromSeq limit : Nat) : (coldRead crc ss fromSeq limit).length ≤ limit := by
  unfold coldRead
  split
  · simp
  · split
    · simp
    · exact coldLoop_len crc _ _ _

/-! ### Steps -/

/-- What a step does to the requests that wait for the storage task. -/
structure Waits (crc : Bytes → Nat) (t : Topic) (e : Ev) (t' : Topic) : Prop where
  next : t.nextOp ≤ t'.nextOp
  /-- A new fetch gets the number that was next. -/
  fetches : ∀ id op', mget t'.fetches id = some op' → (id = t.nextOp ∧ id < t'.nextOp ∧ op'.phase = .ready)
    ∨ ∃ op, mget t.fetches id = some op ∧ op'.query = op.query
      ∧ ∀ ms, op'.phase = .answered ms → op.phase = .answered ms
        ∨ ∃ fr l cs, t.chan = .cold id fr l :: cs ∧ ms = coldRead crc t.disk.segs fr l
  colds : ∀ id fr l, SCmd.cold id fr l ∈ t'.chan → SCmd.cold id fr l ∈ t.chan
    ∨ ∃ op, mget t.fetches id = some op ∧ l = op.limit
  reads : ∀ id ms, mget t'.reads id = some (some ms) → mget t.reads id = some (some ms)
    ∨ ∃ fr l cs, t.chan = .coldRead id fr l :: cs ∧ ms = coldRead crc t.disk.segs fr l
  coldReads : ∀ id fr l, SCmd.coldRead id fr l ∈ t'.chan → SCmd.coldRead id fr l ∈ t.chan ∨ (id = t.nextOp ∧ id < t'.nextOp)

variable {crc : Bytes → Nat} {t t' : Topic} {e : Ev}

theorem Waits.same (h1 : t'.nextOp = t.nextOp) (h2 : t'.fetches = t.fetches) (h3 : t'.reads = t.reads)
    (h4 : ∀ c, c ∈ t'.chan → c ∈ t.chan ∨ (∀ id fr l, c ≠ .cold id fr l ∧ c ≠ .coldRead id fr l)) : Waits crc t e t' := by
  refine ⟨Nat.le_of_eq h1.symm, ?_, ?_, ?_, ?_⟩
  · intro id op' h
    rw [h2] at h
    exact .inr ⟨op', h, rfl, fun ms hms => .inl hms⟩
  · intro id fr l h
    rcases h4 _ h with h | h
    · exact .inl h
    · exact absurd rfl (h id fr l).1
  · intro id ms h; rw [h3] at h; exact .inl h
  · intro id fr l h
    rcases h4 _ h with h | h
    · exact .inl h
    · exact absurd rfl (h id fr l).2

/-- A fetch ends. -/
theorem Waits.del (h1 : t'.nextOp = t.nextOp) (id : Nat) (h2 : t'.fetches = mdel t.fetches id) (h3 : t'.reads = t.reads)
    (h4 : t'.chan = t.chan) : Waits crc t e t' := by
  refine ⟨Nat.le_of_eq h1.symm, ?_, ?_, ?_, ?_⟩
  · intro i op' h
    rw [h2, mget_mdel] at h
    split at h
    · cases h
    · exact .inr ⟨op', h, rfl, fun ms hms => .inl hms⟩
  · intro i fr l h; rw [h4] at h; exact .inl h
  · intro i ms h; rw [h3] at h; exact .inl h
  · intro i fr l h; rw [h4] at h; exact .inl h

theorem tryFetch_waits (t : Topic) (g c : Str) (gen l now : Nat) :
    (t.tryFetch g c gen l now).1.nextOp = t.nextOp ∧ (t.tryFetch g c gen l now).1.fetches = t.fetches
      ∧ (t.tryFetch g c gen l now).1.reads = t.reads ∧ (t.tryFetch g c gen l now).1.chan = t.chan := by
  unfold Topic.tryFetch
  split
  · exact ⟨rfl, rfl, rfl, rfl⟩
  · simp only
    split
    · exact ⟨rfl, rfl, rfl, rfl⟩
    · split <;> exact ⟨rfl, rfl, rfl, rfl⟩

theorem dropBinding_waits (order : Str → List Nat) (t : Topic) (b : Str × Str) :
    (Topic.dropBinding order t b).nextOp = t.nextOp ∧ (Topic.dropBinding order t b).fetches = t.fetches
      ∧ (Topic.dropBinding order t b).reads = t.reads ∧ (Topic.dropBinding order t b).chan = t.chan := by
  unfold Topic.dropBinding
  split
  · exact ⟨rfl, rfl, rfl, rfl⟩
  · split <;> exact ⟨rfl, rfl, rfl, rfl⟩

theorem dropBindings_waits (order : Str → List Nat) (bs : List (Str × Str)) : ∀ (t : Topic),
    (bs.foldl (Topic.dropBinding order) t).nextOp = t.nextOp ∧ (bs.foldl (Topic.dropBinding order) t).fetches = t.fetches
      ∧ (bs.foldl (Topic.dropBinding order) t).reads = t.reads ∧ (bs.foldl (Topic.dropBinding order) t).chan = t.chan := by
  induction bs with
  | nil => intro t; exact ⟨rfl, rfl, rfl, rfl⟩
  | cons b bs ih =>
    intro t
    obtain ⟨h1, h2, h3, h4⟩ := dropBinding_waits order t b
    obtain ⟨g1, g2, g3, g4⟩ := ih (Topic.dropBinding order t b)
    exact ⟨g1.trans h1, g2.trans h2, g3.trans h3, g4.trans h4⟩

theorem finishCold_waits (t : Topic) (op : FetchOp) (ms : List Msg) (now : Nat) :
    (t.finishCold op ms now).1.nextOp = t.nextOp ∧ (t.finishCold op ms now).1.fetches = t.fetches
      ∧ (t.finishCold op ms now).1.reads = t.reads ∧ (t.finishCold op ms now).1.chan = t.chan := by
  unfold Topic.finishCold
  split
  · exact ⟨rfl, rfl, rfl, rfl⟩
  · simp only
    split
    · exact ⟨rfl, rfl, rfl, rfl⟩
    · split <;> exact ⟨rfl, rfl, rfl, rfl⟩

/-- The phase of a fetch changes (not to an answer). -/
theorem Waits.phase (h1 : t'.nextOp = t.nextOp) (id : Nat) (op : FetchOp) (ph : Phase) (hop : mget t.fetches id = some op)
    (hph : ∀ ms, ph ≠ .answered ms) (h2 : t'.fetches = mset t.fetches id { op with phase := ph }) (h3 : t'.reads = t.reads)
    (h4 : t'.chan = t.chan ∨ ∃ fr, t'.chan = t.chan ++ [.cold id fr op.limit]) : Waits crc t e t' := by
  refine ⟨Nat.le_of_eq h1.symm, ?_, ?_, ?_, ?_⟩
  · intro i op' h
    rw [h2, mget_mset] at h
    split at h
    · next e =>
      cases h
      exact .inr ⟨op, by rw [e]; exact hop, rfl, fun ms hms => absurd hms (hph ms)⟩
    · exact .inr ⟨op', h, rfl, fun ms hms => .inl hms⟩
  · intro i fr l h
    rcases h4 with h4 | ⟨fr', h4⟩
    · rw [h4] at h; exact .inl h
    · rw [h4] at h
      rcases List.mem_append.1 h with h | h
      · exact .inl h
      · simp only [List.mem_singleton, SCmd.cold.injEq] at h
        right; exact ⟨op, by rw [h.1]; exact hop, h.2.2⟩
  · intro i ms h; rw [h3] at h; exact .inl h
  · intro i fr l h
    rcases h4 with h4 | ⟨fr', h4⟩
    · rw [h4] at h; exact .inl h
    · rw [h4] at h
      rcases List.mem_append.1 h with h | h
      · exact .inl h
      · simp at h

theorem step_waits (crc : Bytes → Nat) (t : Topic) (e : Ev) : Waits crc t e (t.step crc e).1 := by
  have refl : Waits crc t e t := Waits.same rfl rfl rfl (fun c h => .inl h)
  cases e with
  | publish ts p => exact Waits.same rfl rfl rfl (fun c h => .inl h)
  | send i =>
    simp only [Topic.step]
    split
    · exact refl
    · refine Waits.same rfl rfl rfl (fun c h => ?_)
      rcases List.mem_append.1 h with h | h
      · exact .inl h
      · right; intro id fr l; rw [List.mem_singleton.1 h]; exact ⟨(fun h => by cases h), fun h => by cases h⟩
  | join g conn c => exact Waits.same rfl rfl rfl (fun c h => .inl h)
  | leave g c gen order =>
    simp only [Topic.step, Topic.leave]
    split
    · exact refl
    · split
      · exact refl
      · split
        · exact refl
        · exact Waits.same rfl rfl rfl (fun c h => .inl h)
  | disconnect conn order =>
    simp only [Topic.step, Topic.disconnect]
    split
    · exact refl
    · obtain ⟨h1, h2, h3, h4⟩ := dropBindings_waits order ‹_› { t with clients := mdel t.clients conn }
      exact Waits.same h1 h2 h3 (fun c h => by rw [h4] at h; exact .inl h)
  | fetch g c gen l p =>
    simp only [Topic.step]
    split
    · refine ⟨Nat.le_succ _, ?_, ?_, ?_, ?_⟩
      · intro id op' h; exact .inr ⟨op', h, rfl, fun ms hms => .inl hms⟩
      · intro id fr l h; exact .inl h
      · intro id ms h; exact .inl h
      · intro id fr l h; exact .inl h
    · refine ⟨Nat.le_succ _, ?_, ?_, ?_, ?_⟩
      · intro id op' h
        simp only [mget_mset] at h
        split at h
        · next e => cases h; exact .inl ⟨e, by rw [e]; exact Nat.lt_succ_self _, rfl⟩
        · exact .inr ⟨op', h, rfl, fun ms hms => .inl hms⟩
      · intro id fr l h; exact .inl h
      · intro id ms h; exact .inl h
      · intro id fr l h; exact .inl h
  | attempt id now =>
    simp only [Topic.step, Topic.attempt]
    split
    · exact refl
    · next op hop =>
      obtain ⟨h1, h2, h3, h4⟩ := tryFetch_waits t op.group op.consumer op.gen op.limit now
      have hend : ∀ r, Waits crc t (.attempt id now)
          ((t.tryFetch op.group op.consumer op.gen op.limit now).1.endFetch id op r).1 :=
        fun r => Waits.del h1 id (by simp only [Topic.endFetch, h2]) h3 h4
      split
      · exact refl
      · split
        · exact hend _
        · exact hend _
        · exact Waits.phase h1 id op .disk hop (fun ms h => by cases h) rfl h3 (.inr ⟨_, rfl⟩)
        · split
          · exact Waits.phase h1 id op .waiting hop (fun ms h => by cases h) rfl h3 (.inl h4)
          · exact hend _
  | giveUp id =>
    simp only [Topic.step]
    split
    · exact refl
    · split
      · exact Waits.del rfl id rfl rfl rfl
      · exact refl
  | finish id now =>
    simp only [Topic.step]
    split
    · exact refl
    · next op hop =>
      split
      · next ms hms =>
        obtain ⟨h1, h2, h3, h4⟩ := finishCold_waits t op ms now
        exact Waits.del h1 id (by simp only [Topic.endFetch, h2]) h3 h4
      · exact refl
  | abort id => exact Waits.del rfl id rfl rfl rfl
  | ack g c gen s =>
    simp only [Topic.step, Topic.ack]
    split
    · exact refl
    · split <;> exact Waits.same rfl rfl rfl (fun c h => .inl h)
  | seek g e => exact Waits.same rfl rfl rfl (fun c h => .inl h)
  | tick now order => exact Waits.same rfl rfl rfl (fun c h => .inl h)
  | evictLoad => exact Waits.same rfl rfl rfl (fun c h => .inl h)
  | evictRun =>
    simp only [Topic.step]
    split
    · exact refl
    · exact Waits.same rfl rfl rfl (fun c h => .inl h)
  | save order =>
    simp only [Topic.step, Topic.saveGroups]
    split
    · refine Waits.same rfl rfl rfl (fun c h => ?_)
      rcases List.mem_append.1 h with h | h
      · exact .inl h
      · right; intro id fr l; rw [List.mem_singleton.1 h]; exact ⟨(fun h => by cases h), fun h => by cases h⟩
    · exact refl
  | retainSend =>
    simp only [Topic.step]
    split
    · refine Waits.same rfl rfl rfl (fun c h => ?_)
      rcases List.mem_append.1 h with h | h
      · exact .inl h
      · right; intro id fr l; rw [List.mem_singleton.1 h]; exact ⟨(fun h => by cases h), fun h => by cases h⟩
    · exact refl
  | retainDone =>
    simp only [Topic.step]
    split
    · unfold Topic.applyOutcome
      split <;> exact Waits.same rfl rfl rfl (fun c h => .inl h)
    · exact refl
  | read f l =>
    simp only [Topic.step, Topic.startRead]
    split
    · refine ⟨Nat.le_succ _, ?_, ?_, ?_, ?_⟩
      · intro id op' h; exact .inr ⟨op', h, rfl, fun ms hms => .inl hms⟩
      · intro id fr l h
        rcases List.mem_append.1 h with h | h
        · exact .inl h
        · simp at h
      · intro id ms h
        simp only [mget_mset] at h
        split at h
        · cases h
        · exact .inl h
      · intro id fr l h
        rcases List.mem_append.1 h with h | h
        · exact .inl h
        · simp only [List.mem_singleton, SCmd.coldRead.injEq] at h
          right; exact ⟨h.1, by rw [h.1]; exact Nat.lt_succ_self _⟩
    · refine ⟨Nat.le_succ _, ?_, ?_, ?_, ?_⟩
      · intro id op' h; exact .inr ⟨op', h, rfl, fun ms hms => .inl hms⟩
      · intro id fr l h; exact .inl h
      · intro id ms h; exact .inl h
      · intro id fr l h; exact .inl h
  | readDone id =>
    simp only [Topic.step]
    split
    · refine ⟨Nat.le_refl _, ?_, ?_, ?_, ?_⟩
      · intro id op' h; exact .inr ⟨op', h, rfl, fun ms hms => .inl hms⟩
      · intro id fr l h; exact .inl h
      · intro i ms h
        simp only [mget_mdel] at h
        split at h
        · cases h
        · exact .inl h
      · intro id fr l h; exact .inl h
    · exact refl
  | storage now =>
    simp only [Topic.step]
    split
    · exact refl
    · next c cs hc =>
      have hin : ∀ x, x ∈ cs → x ∈ t.chan := fun x hx => by rw [hc]; exact List.mem_cons_of_mem _ hx
      cases c with
      | append m => exact Waits.same rfl rfl rfl (fun x h => .inl (hin x h))
      | cold id fr l =>
        refine ⟨Nat.le_refl _, ?_, ?_, ?_, ?_⟩
        · intro i op' h
          simp only [Topic.handle, mget_mupd] at h
          split at h
          · next e =>
            cases hr : mget t.fetches i with
            | none => rw [hr] at h; cases h
            | some op =>
              rw [hr] at h
              simp only [Option.map_some, Option.some.injEq] at h
              rw [← h]
              refine .inr ⟨op, rfl, ?_⟩
              split
              · refine ⟨rfl, fun ms hms => .inr ⟨fr, l, cs, by rw [hc, e], ?_⟩⟩
                simp only [Phase.answered.injEq] at hms
                exact hms.symm
              · exact ⟨rfl, fun ms hms => .inl hms⟩
          · exact .inr ⟨op', h, rfl, fun ms hms => .inl hms⟩
        · intro i fr l h; exact .inl (hin _ h)
        · intro i ms h; exact .inl h
        · intro i fr l h; exact .inl (hin _ h)
      | coldRead id fr l =>
        refine ⟨Nat.le_refl _, ?_, ?_, ?_, ?_⟩
        · intro i op' h; exact .inr ⟨op', h, rfl, fun ms hms => .inl hms⟩
        · intro i fr l h; exact .inl (hin _ h)
        · intro i ms h
          simp only [Topic.handle, mget_mupd] at h
          split at h
          · next e =>
            cases hr : mget t.reads i with
            | none => rw [hr] at h; cases h
            | some x =>
              rw [hr] at h
              simp only [Option.map_some, Option.some.injEq] at h
              right
              exact ⟨fr, l, cs, by rw [hc, e], h.symm⟩
          · exact .inl h
        · intro i fr l h; exact .inl (hin _ h)
      | save gs => exact Waits.same rfl rfl rfl (fun x h => .inl (hin x h))
      | retention => exact Waits.same rfl rfl rfl (fun x h => .inl (hin x h))
  | flush now =>
    simp only [Topic.step, Topic.flushAll]
    split <;> exact Waits.same rfl rfl rfl (fun c h => .inl h)
  | leak s n now => exact Waits.same rfl rfl rfl (fun c h => .inl h)
  | closeHandle s now => exact Waits.same rfl rfl rfl (fun c h => .inl h)

/-! ### Answers of fetches -/

theorem tryFetch_answer {g c : Str} {gen l now : Nat} {ms : List Msg}
    (h : (t.tryFetch g c gen l now).2 = .ok (.ready ms)) : (∀ m ∈ ms, m ∈ t.log.msgs) ∧ ms.length ≤ l := by
  have hnil : ∀ xs : List Msg, xs = [] → (∀ m ∈ xs, m ∈ t.log.msgs) ∧ xs.length ≤ l := by
    intro xs hx; subst hx; exact ⟨by simp, by simp⟩
  unfold Topic.tryFetch at h
  split at h
  · cases h
  · next g0 hg =>
    simp only at h
    split at h
    · simp only [Except.ok.injEq, Topic.Attempt.ready.injEq] at h
      exact hnil ms h.symm
    · generalize hfe : ((g0.clampHead t.log.head).1.fetch (t.ask c now) gen l).2 = fe at h
      cases fe with
      | error e => cases h
      | ok xs =>
        simp only [Except.ok.injEq] at h
        have hx : (∀ m ∈ xs, m ∈ t.log.msgs) ∧ xs.length ≤ l := by
          unfold Group.fetch at hfe
          split at hfe
          · cases hfe
          · simp only [Except.ok.injEq] at hfe
            rw [← hfe]
            exact deliver_any _ _ _
        unfold Topic.decideFetch at h
        split at h
        · simp only [Topic.Attempt.ready.injEq] at h; rw [← h]; exact hx
        · split at h
          · simp only [Topic.Attempt.ready.injEq] at h; exact hnil ms h.symm
          · split at h <;> cases h

theorem finishCold_answer {op : FetchOp} {xs ms : List Msg} {now : Nat} (h : (t.finishCold op xs now).2 = .ok ms) :
    ms.Sublist xs := by
  unfold Topic.finishCold at h
  split at h
  · cases h
  · next g0 hg =>
    simp only at h
    split at h
    · simp only [Except.ok.injEq] at h; rw [← h]; exact List.nil_sublist _
    · split at h
      · cases h
      · next r hr =>
        simp only [Except.ok.injEq] at h
        subst h
        unfold Group.registerCold at hr
        split at hr
        · cases hr
        · simp only [Except.ok.injEq] at hr
          obtain ⟨ys, h1, h2⟩ := coldLoop_any op.consumer now t.log.head xs
            (({ g0 with fetchingCold := false }.clampHead t.log.head).1.clampHead t.log.head).1 []
          rw [← hr, h1]
          exact h2

/-- Where the messages of an answer come from. -/
theorem step_fetched {q : Query} {ms : List Msg} (h : (t.step crc e).2 = .fetched q (.ok ms)) :
    ((∀ m ∈ ms, m ∈ t.log.msgs) ∧ ms.length ≤ q.limit)
      ∨ ∃ id op xs, mget t.fetches id = some op ∧ op.phase = .answered xs ∧ op.query = q ∧ ms.Sublist xs := by
  have hnil : ∀ q' : Query, (Out.fetched q' (.ok []) = .fetched q (.ok ms)) →
      ((∀ m ∈ ms, m ∈ t.log.msgs) ∧ ms.length ≤ q.limit) := by
    intro q' hx
    simp only [Out.fetched.injEq, Except.ok.injEq] at hx
    rw [← hx.2]; exact ⟨by simp, by simp⟩
  cases e with
  | fetch g c gen l p =>
    simp only [Topic.step] at h
    split at h <;> simp at h
  | attempt id now =>
    left
    simp only [Topic.step, Topic.attempt] at h
    split at h
    · cases h
    · next op hop =>
      split at h
      · cases h
      · split at h
        · simp only [Topic.endFetch] at h
          split at h
          · exact hnil _ h
          · simp at h
        · next xs hr =>
          simp only [Topic.endFetch, Out.fetched.injEq, Except.ok.injEq] at h
          obtain ⟨h1, h2⟩ := h
          subst h2
          have := tryFetch_answer hr
          rw [← h1]
          exact this
        · cases h
        · split at h
          · cases h
          · exact hnil _ h
  | giveUp id =>
    left
    simp only [Topic.step] at h
    split at h
    · cases h
    · split at h
      · exact hnil _ h
      · cases h
  | finish id now =>
    simp only [Topic.step] at h
    split at h
    · cases h
    · next op hop =>
      split at h
      · next xs hx =>
        simp only [Topic.endFetch, Out.fetched.injEq] at h
        exact .inr ⟨id, op, xs, hop, hx, h.1, finishCold_answer h.2⟩
      · cases h
  | publish ts p => cases h
  | send i => simp only [Topic.step] at h; split at h <;> cases h
  | join g conn c => cases h
  | leave g c gen order =>
    simp only [Topic.step, Topic.leave] at h
    split at h
    · cases h
    · split at h
      · cases h
      · split at h <;> cases h
  | disconnect conn order => cases h
  | abort id => cases h
  | ack g c gen s =>
    simp only [Topic.step, Topic.ack] at h
    split at h
    · cases h
    · split at h <;> cases h
  | seek g e => cases h
  | tick now order => cases h
  | evictLoad => cases h
  | evictRun => simp only [Topic.step] at h; split at h <;> cases h
  | save order => cases h
  | retainSend => simp only [Topic.step] at h; split at h <;> cases h
  | retainDone => simp only [Topic.step] at h; split at h <;> cases h
  | read f l => simp only [Topic.step, Topic.startRead] at h; split at h <;> cases h
  | readDone id => simp only [Topic.step] at h; split at h <;> cases h
  | storage now => simp only [Topic.step] at h; split at h <;> cases h
  | flush now => cases h
  | leak s n now => cases h
  | closeHandle s now => cases h

/-! ### Numbers and limits of waiting requests -/

structure IdsOk (t : Topic) : Prop where
  fetch : ∀ id op, mget t.fetches id = some op → id < t.nextOp
  cold : ∀ id fr l, SCmd.cold id fr l ∈ t.chan → id < t.nextOp
  read : ∀ id fr l, SCmd.coldRead id fr l ∈ t.chan → id < t.nextOp
  limit : ∀ id fr l op, SCmd.cold id fr l ∈ t.chan → mget t.fetches id = some op → l = op.limit
  answer : ∀ id op ms, mget t.fetches id = some op → op.phase = .answered ms → ms.length ≤ op.limit

theorem query_limit {a b : FetchOp} (h : a.query = b.query) : a.limit = b.limit := congrArg Query.limit h

theorem IdsOk.step (h : IdsOk t) (crc : Bytes → Nat) (e : Ev) : IdsOk (Topic.step crc t e).1 := by
  have w := step_waits crc t e
  have hn := w.next
  refine ⟨?_, ?_, ?_, ?_, ?_⟩
  · intro id op' ho
    rcases w.fetches id op' ho with h1 | ⟨op, h1, _⟩
    · exact h1.2.1
    · have := h.fetch id op h1; omega
  · intro id fr l hc
    rcases w.colds id fr l hc with h1 | ⟨op, h1, _⟩
    · have := h.cold id fr l h1; omega
    · have := h.fetch id op h1; omega
  · intro id fr l hc
    rcases w.coldReads id fr l hc with h1 | h1
    · have := h.read id fr l h1; omega
    · exact h1.2
  · intro id fr l op' hc ho
    rcases w.fetches id op' ho with h1 | ⟨op, h1, h2, _⟩
    · rcases w.colds id fr l hc with h3 | ⟨op, h3, _⟩
      · have := h.cold id fr l h3; omega
      · have := h.fetch id op h3; omega
    · rw [query_limit h2]
      rcases w.colds id fr l hc with h3 | ⟨op2, h3, h4⟩
      · exact h.limit id fr l op h3 h1
      · rw [h1] at h3; cases h3; exact h4
  · intro id op' ms ho hp
    rcases w.fetches id op' ho with h1 | ⟨op, h1, h2, h3⟩
    · rw [h1.2.2] at hp; cases hp
    · rw [query_limit h2]
      rcases h3 ms hp with h4 | ⟨fr, l, cs, h4, h5⟩
      · exact h.answer id op ms h1 h4
      · have := h.limit id fr l op (by rw [h4]; exact List.mem_cons_self) h1
        rw [h5, ← this]
        exact coldRead_len _ _ _ _

theorem IdsOk.run (h : IdsOk t) (crc : Bytes → Nat) (es : List Ev) : IdsOk (Topic.run crc t es) := by
  induction es generalizing t with
  | nil => exact h
  | cons e es ih => exact ih (h.step crc e)

theorem IdsOk.build (crc : Bytes → Nat) (cfg : Cfg) (lossy : Bytes → Str) (d : Disk) : IdsOk (Topic.build crc cfg lossy d) :=
  ⟨fun _ _ h => (by cases h), fun _ _ _ h => (by cases h), fun _ _ _ h => (by cases h), fun _ _ _ _ h => (by cases h),
    fun _ _ _ h => (by cases h)⟩

theorem fetched_limit {q : Query} {ms : List Msg} (hi : IdsOk t) (h : (t.step crc e).2 = .fetched q (.ok ms)) :
    ms.length ≤ q.limit := by
  rcases step_fetched h with h | ⟨id, op, xs, h1, h2, h3, h4⟩
  · exact h.2
  · have := hi.answer id op xs h1 h2
    have h5 : op.limit = q.limit := by rw [← h3]; rfl
    have := h4.length_le
    omega

/-! ### Messages of answers -/

variable {base : Nat} {H : List Msg} {clock now : Nat} {f : Nat} {W : List Msg}

/-- The answers of the storage task are messages of the log. -/
def FromLog (H : List Msg) (t : Topic) : Prop :=
  ∀ id op ms, mget t.fetches id = some op → op.phase = .answered ms → ∀ m ∈ ms, m ∈ H

theorem DInv.mem_log (hd : DInv crc base H clock t f W) {m : Msg} (hm : m ∈ W) : m ∈ H :=
  List.mem_of_mem_drop (hd.flow ▸ List.mem_append_left _ hm)

theorem DInv.cold_log (hd : DInv crc base H clock t f W) (fr l : Nat) : ∀ m ∈ coldRead crc t.disk.segs fr l, m ∈ H := by
  obtain ⟨D, _, _, h⟩ := hd.disk.coldRead hd.fitsW hd.numW
  intro m hm
  rw [h] at hm
  exact hd.mem_log (List.mem_of_mem_take (List.mem_of_mem_drop (List.mem_of_mem_take hm)))

theorem FromLog.step (h : FromLog H t) (hd : DInv crc base H clock t f W) (e : Ev) (x : List Msg) :
    FromLog (H ++ x) (Topic.step crc t e).1 := by
  intro id op' ms ho hp m hm
  refine List.mem_append_left _ ?_
  rcases (step_waits crc t e).fetches id op' ho with h1 | ⟨op, h1, _, h3⟩
  · rw [h1.2.2] at hp; cases hp
  · rcases h3 ms hp with h4 | ⟨fr, l, cs, _, h5⟩
    · exact h id op ms h1 h4 m hm
    · rw [h5] at hm; exact hd.cold_log fr l m hm

/-- Induction over a history, for a property `P` of the log, the topic and the number of the first message kept. -/
theorem DInv.induct (P : List Msg → Topic → Nat → Prop) {t0 : Topic} {f0 : Nat} {W0 : List Msg}
    (hd : DInv crc base H now t0 f0 W0) (hi : TInv t0) (h0 : P H t0 f0) (hstep : ∀ (H' : List Msg) (clock : Nat) (t : Topic) (f : Nat) (W : List Msg) (e : Ev) (f' : Nat) (W' : List Msg) (clock' : Nat),
      P H' t f → DInv crc base H' clock t f W → TInv t → f ≤ f' → t.persisted ≤ (t.step crc e).1.persisted →
      DInv crc base (H' ++ published t.log.next [e]) clock' (t.step crc e).1 f' W' →
      P (H' ++ published t.log.next [e]) (t.step crc e).1 f')
    (es : List Ev) (ho : Orderly now t0 es) :
    ∃ f W, P (H ++ published t0.log.next es) (t0.run crc es) f
      ∧ DInv crc base (H ++ published t0.log.next es) (clockAfter now es) (t0.run crc es) f W ∧ TInv (t0.run crc es) := by
  induction es generalizing t0 H now f0 W0 with
  | nil => exact ⟨f0, W0, by simpa [published, Topic.run] using h0, by simpa [published, clockAfter, Topic.run] using hd, hi⟩
  | cons e es ih =>
    have hp : published t0.log.next (e :: es) = published t0.log.next [e] ++ published (t0.log.next + (published t0.log.next [e]).length) es :=
      published_append t0.log.next [e] es
    have hfit := ho.fits
    rw [hp] at hfit
    obtain ⟨f', W', ⟨h1, _⟩, h2, h3⟩ := hd.step hi e (fun i h => ho.inOrder i (by rw [h]; exact List.mem_cons_self))
      (fun ha => (ho.clock ha).1) (fun m hm => hfit m (List.mem_append_left _ hm))
    have hnext : (t0.step crc e).1.log.next = t0.log.next + (published t0.log.next [e]).length := by
      rw [h3.next, hd.next, List.length_append]; omega
    have hcfg : (t0.step crc e).1.cfg = t0.cfg := run_cfg crc [e] t0
    have hP := hstep H now t0 f0 W0 e f' W' _ h0 hd hi h1 h2 h3
    obtain ⟨f'', W'', g1, g2, g3⟩ := ih h3 (hi.step crc e) hP
      ⟨fun i hi => ho.inOrder i (List.mem_cons_of_mem _ hi), fun ha => (ho.clock (hcfg ▸ ha)).2, fun m hm => by
        rw [hnext] at hm
        exact hfit m (List.mem_append_right _ hm)⟩
    rw [hnext] at g1 g2
    refine ⟨f'', W'', ?_, ?_, g3⟩
    · rw [hp, ← List.append_assoc]; exact g1
    · rw [hp, ← List.append_assoc]; exact g2

end Verif.Stream
