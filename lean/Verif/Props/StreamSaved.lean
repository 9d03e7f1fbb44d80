import Verif.Proofs.StreamKept
import Verif.Props.StreamRestart

/-!
# The progress of groups across restarts (C59, C66)

A crash may come after any history.  `Topic.restart` builds the topic from the files alone; `viewAfter` is the observer of
a group (`Spec/StreamGroup.lean`).
-/

namespace Verif.Stream

/-- **C59**, the part that holds for any crash: no progress is invented.  A message that the group had not settled when
the server stopped (not delivered, delivered and not acknowledged, or waiting for redelivery) is owed to the group when a
consumer joins after the restart, if it is still in the log.  The message must have been owed in this run, that is: the
group must not have been sought in it (`hns`), and the group's saved progress must not have been ahead of the log
(`C59_violated`). -/
theorem C59_unsettled_partial {crc : Bytes → Nat} {lossy : Bytes → Str} {d : Disk} (hd : GoodDisk crc lossy d) (cfg : Cfg)
    (hmd : 1 ≤ cfg.maxDeliveries) (name : Str) (es : List Ev) (hnd : (joinIds name es).Nodup) (hns : NoSeek name es)
    (hn0 : ∀ n, mhas (Topic.build crc cfg lossy d).groups n = true → NameOk lossy n)
    (hn : ∀ e ∈ es, ∀ n, e.creates = some n → NameOk lossy n)
    (s : Nat) (hs1 : 1 ≤ s) (hs : ((viewAfter crc (Topic.build crc cfg lossy d) name es).fate s).settled = false)
    (hlog : (((Topic.build crc cfg lossy d).run crc es).restart crc lossy).log.head ≤ s) (conn c : Str) :
    (viewAfter crc (((Topic.build crc cfg lossy d).run crc es).restart crc lossy) name [.join name conn c]).fate s = .fresh := by
  have hst : Started crc (Topic.build crc cfg lossy d) := ⟨hmd, lossy, d, hd, rfl⟩
  have hsaved := SavedOk.run (name := name) rfl hst ⟨build_wf _ _ _ _, fun n hn => hn0 n (mget_isSome.2 hn)⟩ es hnd hns hn
  refine build_fresh (d := { ((Topic.build crc cfg lossy d).run crc es).disk with writers := [] }) (fun f hf => ?_) hlog hs1 conn c
  apply Nat.lt_of_not_le
  intro hle
  have := (hsaved.file f hf).2 s hle
  rw [hs] at this
  cases this

section

variable {crc : Bytes → Nat} {base : Nat} {H : List Msg} {now : Nat} {t : Topic} {lossy : Bytes → Str}

/-- **C66**: saved progress survives.  Take any history in which, at some point, every message up to `s` is settled for
the group and `s` has been acknowledged (or its deliveries are used up); then the task that saves the progress of the
groups runs, and the storage task handles the commands that are then in its channel.  Whatever happens besides, and
whenever the server then stops: after the restart a joining consumer is told a progress of at least `s`. -/
theorem C66_progress (hst : StartsWith crc base H now t) (hmd : 1 ≤ t.cfg.maxDeliveries) (name : Str) (pre post : List Ev)
    (order : List (Str × Nat) → List (Str × Nat)) (hnd : (joinIds name (pre ++ .save order :: post)).Nodup)
    (hf : ∀ m ∈ published t.log.next (pre ++ .save order :: post), Fits m)
    (hB : (t.run crc (pre ++ .save order :: post)).log.next ≤ 2 ^ 64)
    (hn0 : ∀ n, mhas t.groups n = true → NameOk lossy n)
    (hn : ∀ e ∈ pre ++ .save order :: post, ∀ n, e.creates = some n → NameOk lossy n)
    (hns : NoSeek name post) (hq : (t.run crc (pre ++ [.save order])).chan.length ≤ storages post) (s : Nat)
    (hall : ∀ s' ≤ s, ((viewAfter crc t name pre).fate s').settled = true)
    (hs : (viewAfter crc t name pre).fate s = .acked ∨ (viewAfter crc t name pre).fate s = .gaveUp) (conn c : Str) :
    ∃ f gen, (((t.run crc (pre ++ .save order :: post)).restart crc lossy).step crc (.join name conn c)).2 = .joined f c gen
      ∧ s ≤ f := by
  have hk : (viewAfter crc t name pre).known = true := acked_known (hst.started hmd) (joinIds_prefix hnd) hs
  obtain ⟨f, h1, h2⟩ := kept hst hmd (hst.named hn0) pre post order hnd hf hB hn hns hq s ⟨hk, hall, hs⟩
  have hg := build_group crc lossy name (t.run crc (pre ++ .save order :: post)).cfg
    { (t.run crc (pre ++ .save order :: post)).disk with writers := [] }
  simp only [h1, Option.map_some] at hg
  refine ⟨_, _, rfl, ?_⟩
  simp only [Topic.restart, hg, Option.getD_some, Group.addMember]
  refine Nat.le_trans ?_ (clampHead_floor _ _)
  simp only [Group.restore]
  omega

/-- **C66**: and in the new run neither `s` nor anything below is delivered to the group, unless the group is sought. -/
theorem C66_not_redelivered (hst : StartsWith crc base H now t) (hmd : 1 ≤ t.cfg.maxDeliveries) (name : Str) (pre post : List Ev)
    (order : List (Str × Nat) → List (Str × Nat)) (hnd : (joinIds name (pre ++ .save order :: post)).Nodup)
    (hf : ∀ m ∈ published t.log.next (pre ++ .save order :: post), Fits m)
    (hB : (t.run crc (pre ++ .save order :: post)).log.next ≤ 2 ^ 64)
    (hn0 : ∀ n, mhas t.groups n = true → NameOk lossy n)
    (hn : ∀ e ∈ pre ++ .save order :: post, ∀ n, e.creates = some n → NameOk lossy n)
    (hns : NoSeek name post) (hq : (t.run crc (pre ++ [.save order])).chan.length ≤ storages post) (s : Nat)
    (hall : ∀ s' ≤ s, ((viewAfter crc t name pre).fate s').settled = true)
    (hs : (viewAfter crc t name pre).fate s = .acked ∨ (viewAfter crc t name pre).fate s = .gaveUp)
    (hre : Started crc ((t.run crc (pre ++ .save order :: post)).restart crc lossy))
    (es : List Ev) (e : Ev) (hnd' : (joinIds name es).Nodup) (hns' : NoSeek name es) (s' : Nat) (hs' : s' ≤ s) :
    s' ∉ given crc ((t.run crc (pre ++ .save order :: post)).restart crc lossy) name es e := by
  have hk : (viewAfter crc t name pre).known = true := acked_known (hst.started hmd) (joinIds_prefix hnd) hs
  obtain ⟨f, h1, h2⟩ := kept hst hmd (hst.named hn0) pre post order hnd hf hB hn hns hq s ⟨hk, hall, hs⟩
  obtain ⟨k1, k2⟩ := build_view (cfg := (t.run crc (pre ++ .save order :: post)).cfg)
    (d := { (t.run crc (pre ++ .save order :: post)).disk with writers := [] }) h1
  have key := hist_ind (name := name) hre (fun _ v => v.known = true ∧ (v.fate s').settled = true)
    (fun e => ∀ b, e ≠ .seek name b)
    (fun es e v' _ hok ⟨i1, i2⟩ heff => ⟨heff.known i1, heff.settled hok i1 i2⟩) es [] (by simpa using hnd')
    (fun e he b hb => hns' b (by rw [← hb]; exact he))
    ⟨k1, by
      have := k2 s' (by omega)
      rw [show viewAfter crc ((t.run crc (pre ++ .save order :: post)).restart crc lossy) name []
        = View.start ((t.run crc (pre ++ .save order :: post)).restart crc lossy) name from rfl]
      rw [show ((t.run crc (pre ++ .save order :: post)).restart crc lossy)
        = Topic.build crc (t.run crc (pre ++ .save order :: post)).cfg lossy
          { (t.run crc (pre ++ .save order :: post)).disk with writers := [] } from rfl, this]
      rfl⟩
  simp only [List.nil_append] at key
  intro hg
  have heff := hre.effect name es e hnd'
  rcases (heff.gives_legal hg).1 with h | ⟨k, h, _⟩ <;> rw [h] at key <;> cases key.2

end

namespace Ex

/-- Two messages are delivered; the first is acknowledged. -/
def esAck1 : List Ev :=
  [.join g k1 c1, .publish 5 [1], .send 0, .publish 6 [2], .send 0, .fetch g c1 1 9 false, .attempt 0 6, .ack g c1 1 1]

/-- The storage task handles what is in its channel and flushes; then a third message is published. -/
def esHandle : List Ev := [.storage 10, .storage 11, .storage 12, .flush 13, .publish 14 [3], .send 0]

theorem fitsSaved : ∀ m ∈ published tM.log.next (esAck1 ++ .save id :: esHandle), Fits m := by
  intro m hm
  have : published tM.log.next (esAck1 ++ .save id :: esHandle) = [⟨1, 5, [1]⟩, ⟨2, 6, [2]⟩, ⟨3, 14, [3]⟩] := rfl
  rw [this] at hm
  simp only [List.mem_cons, List.not_mem_nil, or_false] at hm
  rcases hm with rfl | rfl | rfl <;> exact ⟨by decide, by decide⟩

theorem namesSaved : ∀ e ∈ esAck1 ++ .save id :: esHandle, ∀ n, e.creates = some n → NameOk id n := by
  intro e he n hn
  simp only [esAck1, esHandle, List.cons_append, List.nil_append, List.mem_cons, List.not_mem_nil, or_false] at he
  rcases he with rfl | rfl | rfl | rfl | rfl | rfl | rfl | rfl | rfl | rfl | rfl | rfl | rfl | rfl | rfl <;>
    simp only [Ev.creates, reduceCtorEq] at hn
  cases hn
  exact ⟨by decide, rfl⟩

theorem settledSaved : ∀ s' ≤ 1, ((viewAfter sum tM g esAck1).fate s').settled = true := by
  intro s' hs'
  have : s' = 0 ∨ s' = 1 := by omega
  rcases this with rfl | rfl <;> decide

theorem goodSaved : Started sum ((tM.run sum (esAck1 ++ .save id :: esHandle)).restart sum id) := by
  refine ⟨by decide, id, { (tM.run sum (esAck1 ++ .save id :: esHandle)).disk with writers := [] }, ?_, rfl⟩
  have hm : (Stream.recover sum id { (tM.run sum (esAck1 ++ .save id :: esHandle)).disk with writers := [] }).msgs
      = [⟨1, 5, [1]⟩, ⟨2, 6, [2]⟩] := by decide
  refine ⟨fun i m m0 h1 h2 => ?_, fun m h => ?_, fun s h => ?_⟩
  · rw [hm] at h1 h2
    cases h2
    match i, h1 with
    | 0, h1 => cases h1; rfl
    | 1, h1 => cases h1; rfl
  · rw [hm] at h
    have : max (Disk.headSeq { (tM.run sum (esAck1 ++ .save id :: esHandle)).disk with writers := [] }) 1 = 1 := by decide
    rw [this]
    simp only [List.mem_cons, List.not_mem_nil, or_false] at h
    rcases h with rfl | rfl <;> decide
  · rw [hm]
    have : (tM.run sum (esAck1 ++ .save id :: esHandle)).disk.segs.map (·.start) = [1] := by decide
    have hs : s.start ∈ (tM.run sum (esAck1 ++ .save id :: esHandle)).disk.segs.map (·.start) := List.mem_map_of_mem (f := Seg.start) h
    rw [this] at hs
    simp only [List.mem_cons, List.not_mem_nil, or_false] at hs
    rw [hs]; decide

end Ex

/-- The hypotheses of `C66_progress` hold. -/
example : ∃ f gen, (((Ex.tM.run Ex.sum (Ex.esAck1 ++ .save id :: Ex.esHandle)).restart Ex.sum id).step Ex.sum
    (.join Ex.g Ex.k2 Ex.c2)).2 = .joined f Ex.c2 gen ∧ 1 ≤ f :=
  C66_progress Ex.startsM (by decide) Ex.g Ex.esAck1 Ex.esHandle id (by decide) Ex.fitsSaved
    (by rw [show (Ex.tM.run Ex.sum (Ex.esAck1 ++ .save id :: Ex.esHandle)).log.next = 4 from rfl]; decide)
    (fun n hn => by cases hn) Ex.namesSaved (fun b h => by simp [Ex.esHandle] at h) (by decide) 1 Ex.settledSaved (by decide) _ _

/-- Those of `C66_not_redelivered` too: message 1 is not delivered after the restart. -/
example (es : List Ev) (e : Ev) (hnd : (joinIds Ex.g es).Nodup) (hns : NoSeek Ex.g es) :
    1 ∉ given Ex.sum ((Ex.tM.run Ex.sum (Ex.esAck1 ++ .save id :: Ex.esHandle)).restart Ex.sum id) Ex.g es e :=
  C66_not_redelivered Ex.startsM (by decide) Ex.g Ex.esAck1 Ex.esHandle id (by decide) Ex.fitsSaved
    (by rw [show (Ex.tM.run Ex.sum (Ex.esAck1 ++ .save id :: Ex.esHandle)).log.next = 4 from rfl]; decide)
    (fun n hn => by cases hn) Ex.namesSaved (fun b h => by simp [Ex.esHandle] at h) (by decide) 1 Ex.settledSaved (by decide)
    Ex.goodSaved es e hnd hns 1 (by decide)

/-- The hypotheses of `C59_unsettled_partial` hold: message 2 is owed after the restart. -/
example (conn c : Str) :
    (viewAfter Ex.sum ((Ex.tM.run Ex.sum (Ex.esAck1 ++ .save id :: Ex.esHandle)).restart Ex.sum id) Ex.g [.join Ex.g conn c]).fate 2
      = .fresh :=
  C59_unsettled_partial (d := { segs := [], writers := [], groups := none }) ⟨by simp [Stream.recover], by simp [Stream.recover], by simp⟩
    Ex.cfgM (by decide) Ex.g (Ex.esAck1 ++ .save id :: Ex.esHandle) (by decide)
    (fun b h => by simp [Ex.esHandle, Ex.esAck1] at h) (fun n hn => by cases hn) Ex.namesSaved 2 (by decide) (by decide) (by decide) conn c

/-- Message 2 has not been acknowledged: it is delivered after the restart, message 1 is not. -/
example :
    let t := (Ex.tM.run Ex.sum (Ex.esAck1 ++ .save id :: Ex.esHandle)).restart Ex.sum id
    (t.step Ex.sum (.join Ex.g Ex.k2 Ex.c2)).2 matches .joined 1 _ 1
    ∧ ((t.run Ex.sum [.join Ex.g Ex.k2 Ex.c2, .fetch Ex.g Ex.c2 1 9 false]).step Ex.sum (.attempt 0 21)).2
        matches .fetched _ (.ok [⟨2, 6, [2]⟩]) := by decide

/-- Without the save the acknowledgement is lost. -/
example :
    (((Ex.tM.run Ex.sum (Ex.esAck1 ++ Ex.esHandle)).restart Ex.sum id).step Ex.sum (.join Ex.g Ex.k2 Ex.c2)).2
      matches .joined 0 _ _ := by decide

end Verif.Stream
