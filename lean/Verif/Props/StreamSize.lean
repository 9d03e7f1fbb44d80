import Verif.Spec.StreamSize
import Verif.Props.StreamLog
import Verif.Proofs.Connection

/-!
# Sizes of segment files (C119)
-/

namespace Verif.Stream

section

variable {crc : Bytes → Nat} {max : Nat} {d : Disk}

theorem unflushed_mset (d : Disk) (k s : Nat) (b : Bytes) (w : List (Nat × Bytes)) (hw : w = mset d.writers k b) :
    ({ d with writers := w } : Disk).unflushed s = if s = k then b else d.unflushed s := by
  subst hw
  unfold Disk.unflushed
  simp only [mget_mset]
  split <;> rfl

/-- What reaches the files does not change the lengths of the segments. -/
theorem Disk.Bounded.leak (h : d.Bounded crc max) (start n now : Nat) : (d.leak start n now).Bounded crc max := by
  unfold Disk.leak
  cases hw : mget d.writers start with
  | none => exact h
  | some b =>
    cases b with
    | nil => exact h
    | cons x xs =>
      simp only
      intro s hs
      simp only [writeSeg, List.mem_map] at hs
      obtain ⟨s0, hs0, rfl⟩ := hs
      have key := h s0 hs0
      unfold Disk.content Disk.unflushed at key ⊢
      by_cases he : s0.start = start
      · rw [he, hw] at key
        simp only [he, if_true, mget_mset_same, Option.getD_some]
        rw [List.append_assoc, List.take_append_drop]
        exact key
      · simp only [he, if_false, mget_mset_ne _ _ he]
        exact key

theorem Disk.Bounded.flush (h : d.Bounded crc max) (start now : Nat) : (d.flush start now).Bounded crc max := by
  unfold Disk.flush
  split
  · exact h
  · exact h.leak _ _ _

theorem flush_empty (d : Disk) (start now : Nat) : (d.flush start now).unflushed start = [] := by
  unfold Disk.flush
  cases hw : mget d.writers start with
  | none => simp [Disk.unflushed, hw]
  | some b =>
    simp only
    unfold Disk.leak
    rw [hw]
    cases b with
    | nil => simp [Disk.unflushed, hw]
    | cons x xs => simp [Disk.unflushed, mget_mset_same]

theorem Disk.Bounded.close (h : d.Bounded crc max) (start now : Nat) : (d.close start now).Bounded crc max := by
  intro s hs
  have key := (h.flush start now) s hs
  have he := flush_empty d start now
  unfold Disk.close Disk.content Disk.unflushed at *
  simp only at hs ⊢
  by_cases hst : s.start = start
  · rw [hst] at key ⊢
    rw [he] at key
    rw [mget_mdel_same]
    exact key
  · rw [mget_mdel_ne _ hst]
    exact key

theorem Disk.Bounded.flushAll (h : d.Bounded crc max) (now : Nat) : (d.flushAll now).Bounded crc max := by
  unfold Disk.flushAll
  generalize mkeys d.writers = ks
  induction ks generalizing d with
  | nil => exact h
  | cons k ks ih => exact ih (h.flush k now)

theorem mget_filter_keep {w : List (Nat × Bytes)} {p : Nat → Bool} {k : Nat} (h : p k = true) :
    mget (w.filter (fun e => p e.1)) k = mget w k := by
  induction w with
  | nil => rfl
  | cons e w ih =>
    obtain ⟨a, b⟩ := e
    by_cases ha : p a = true
    · rw [List.filter_cons_of_pos (by exact ha), mget_cons, mget_cons, ih]
    · rw [List.filter_cons_of_neg (by exact ha), mget_cons, ih, if_neg]
      intro hk; exact ha (by rw [show a = k from hk]; exact h)

theorem Disk.Bounded.retain (h : d.Bounded crc max) (r : Retention) (now : Nat) : (d.retain r now).Bounded crc max := by
  intro s hs
  have key := h s (retainSegs_sub hs)
  unfold Disk.retain Disk.content Disk.unflushed at *
  simp only at hs ⊢
  rw [mget_filter_keep (p := fun k => !d.segs.any (fun s => s.start = k) || (retainSegs r now d.segs).any (fun s => s.start = k))]
  · exact key
  · rw [Bool.or_eq_true]
    right
    exact List.any_eq_true.2 ⟨s, hs, by simp⟩

/-- The newest segment and the context of the storage task, when message `seq` is to be written. -/
inductive Tail (d : Disk) (c : Ctx) (seq : Nat) : Prop where
  | empty (hs : d.segs = []) (hw : d.writers = []) (ha : c.active = 1) (hz : c.size = 0)
  | files (pre : List Seg) (l : Seg) (hs : d.segs = pre ++ [l]) (hlt : ∀ x ∈ pre, x.start < l.start)
      (ha : c.active = l.start) (hz : c.size = (d.content l).length) (hw : ∀ k, k ≠ l.start → mget d.writers k = none)
      (hm : 0 < c.size → l.start < seq)

theorem DiskInv.tail {A : Prop} {clock f : Nat} {W : List Msg} {ctx : Option Ctx} {persisted : Nat}
    (h : DiskInv crc A clock f W d ctx persisted) : Tail d (ctx.getD (Ctx.open d)) (f + W.length) := by
  cases h with
  | empty h1 h2 h3 h4 h5 h6 =>
    subst h3
    exact .empty h1 h2 (by simp [Ctx.open, h1]) (by simp [Ctx.open, h1])
  | files pre l pp p buf h1 h2 h3 h4 h5 h6 h7 h8 =>
    have hcc : (ctx.getD (Ctx.open d)).active = l.start ∧ (ctx.getD (Ctx.open d)).size = (records crc p).length := by
      cases ctx with
      | some c' => have := h6 c' rfl; exact ⟨this.1, this.2.1⟩
      | none =>
        have hb := h5 rfl
        have hl := h3.lData
        rw [hb, List.append_nil] at hl
        simp only [Option.getD_none, Ctx.open, h1, List.getLast?_append, List.getLast?_singleton, Option.some_or, hl,
          and_self]
    have hbuf : d.unflushed l.start = buf := by
      unfold Disk.unflushed
      rcases h4 with ⟨h4, hb⟩ | h4
      · rw [h4, hb]; rfl
      · rw [h4, mget_single, if_pos rfl]; rfl
    refine .files pre l h1 (fun x hx => h3.preLt hx) hcc.1 ?_ ?_ ?_
    · rw [hcc.2, ← h3.lData]
      unfold Disk.content
      rw [hbuf]
    · intro k hk
      rcases h4 with ⟨h4, _⟩ | h4
      · rw [h4]; rfl
      · rw [h4, mget_single, if_neg (fun e => hk e.symm)]
    · intro hz
      rw [hcc.2] at hz
      have hp : p ≠ [] := by intro e; rw [e] at hz; simp [records] at hz
      have := List.length_pos_iff.mpr hp
      rw [h2, List.length_append, h3.lStart]
      omega

theorem flush_names (d : Disk) (start now : Nat) : (d.flush start now).segs.map (·.start) = d.segs.map (·.start) := by
  unfold Disk.flush
  split
  · rfl
  · unfold Disk.leak
    split
    · rfl
    · rfl
    · simp only [writeSeg, List.map_map]
      apply List.map_congr_left
      intro s _
      simp only [Function.comp]
      split <;> rfl

theorem close_names (d : Disk) (start now : Nat) : (d.close start now).segs.map (·.start) = d.segs.map (·.start) :=
  flush_names d start now

theorem flush_other (d : Disk) (start now k : Nat) (hk : k ≠ start) : mget (d.flush start now).writers k = mget d.writers k := by
  unfold Disk.flush
  split
  · rfl
  · unfold Disk.leak
    split
    · rfl
    · rfl
    · simp only [mget_mset_ne _ _ hk]

/-- Which file a record goes to. -/
theorem Tail.append {c : Ctx} {m : Msg} (ht : Tail d c m.seq) (now : Nat) :
    (d.Bounded crc max → (appendTo crc max d c m now).1.Bounded crc max)
    ∧ (appendTo crc max d c m now).1.segs.map (·.start) = d.segs.map (·.start)
        ++ (if d.segs = [] then [1] else if 0 < d.newest ∧ max < d.newest + (record crc m).length then [m.seq] else []) := by
  cases ht with
  | empty hs hw ha hz =>
    have hroll : c.rolls max (record crc m).length = false := by simp [Ctx.rolls, hz]
    unfold appendTo
    rw [hroll, ha]
    have hnw : mhas d.writers 1 = false := by rw [hw]; rfl
    have hopen : (d.openWriter 1 now).segs = [{ start := 1, data := [], mtime := now }]
        ∧ (d.openWriter 1 now).writers = [(1, [])] := by
      unfold Disk.openWriter
      rw [hnw]
      simp only [Bool.false_eq_true, if_false, hs, hw]
      exact ⟨rfl, by simp [mset, mdel]⟩
    simp only [Bool.false_eq_true, if_false]
    refine ⟨fun _ s hs' => .inr ⟨m, ?_⟩, ?_⟩
    · simp only [Disk.write, hopen.1, List.mem_singleton] at hs'
      subst hs'
      simp [Disk.content, Disk.unflushed, Disk.write, hopen.2, mupd, mget]
    · simp [Disk.write, hopen.1, hs]
  | files pre l hs hlt ha hz hw hm =>
    have hnew : d.newest = c.size := by simp [Disk.newest, hs, hz]
    have hne : d.segs ≠ [] := by rw [hs]; simp
    rw [if_neg hne, hnew]
    unfold appendTo
    split
    · next hroll =>
      simp only [Ctx.rolls, Bool.and_eq_true, decide_eq_true_eq] at hroll
      have hlt' := hm hroll.2
      have hcb := fun hb : d.Bounded crc max => hb.close c.active now
      have hst := close_names d c.active now
      have hall : ∀ x ∈ (d.close c.active now).segs, x.start < m.seq := by
        intro x hx
        have : x.start ∈ d.segs.map (·.start) := by rw [← hst]; exact List.mem_map_of_mem hx
        obtain ⟨y, hy, he⟩ := List.mem_map.1 this
        rw [hs] at hy
        rcases List.mem_append.1 hy with hy | hy
        · have := hlt y hy; omega
        · rw [List.mem_singleton.1 hy] at he; omega
      have hnow : ∀ k, k ≠ l.start → mget (d.close c.active now).writers k = none := by
        intro k hk
        show mget (mdel (d.flush c.active now).writers c.active) k = none
        rw [ha, mget_mdel_ne _ hk, flush_other _ _ _ _ hk]
        exact hw k hk
      have hnh : mhas (d.close c.active now).writers m.seq = false := by
        unfold mhas; rw [hnow _ (by omega)]; rfl
      generalize hd' : d.close c.active now = d' at *
      have hins := insertSeg_last { start := m.seq, data := [], mtime := now } d'.segs hall
      have hopen : (d'.openWriter m.seq now) = { d' with segs := d'.segs ++ [{ start := m.seq, data := [], mtime := now }]
                                                         writers := mset d'.writers m.seq [] } := by
        unfold Disk.openWriter
        rw [hnh, hins]
        rfl
      rw [hopen]
      refine ⟨fun hb s hs' => ?_, ?_⟩
      · simp only [Disk.write, List.mem_append, List.mem_singleton] at hs'
        rcases hs' with hs' | rfl
        · have hlts := hall s hs'
          have := hcb hb s hs'
          have he : ∀ (e : Disk), e.writers = mupd (mset d'.writers m.seq []) m.seq (· ++ record crc m) →
              e.content s = d'.content s := by
            intro e hee
            unfold Disk.content Disk.unflushed
            rw [hee, mget_mupd, if_neg (by omega), mget_mset_ne _ _ (by omega)]
          rw [he _ rfl]
          exact this
        · refine .inr ⟨m, ?_⟩
          simp [Disk.content, Disk.unflushed, Disk.write, mget_mupd, mget_mset_same]
      · simp only [Disk.write, List.map_append, List.map_cons, List.map_nil]
        rw [if_pos ⟨hroll.2, hroll.1⟩, hst]
    · next hroll =>
      have hroll' : ¬ (0 < c.size ∧ max < c.size + (record crc m).length) := by
        simp only [Ctx.rolls, Bool.and_eq_true, decide_eq_true_eq] at hroll
        exact fun h => hroll ⟨h.2, h.1⟩
      rw [if_neg hroll', ha]
      have hopen : (d.openWriter l.start now).segs = d.segs
          ∧ ∀ k, mget (d.openWriter l.start now).writers k = if k = l.start then some (d.unflushed l.start) else none := by
        unfold Disk.openWriter
        cases hmh : mhas d.writers l.start with
        | true =>
          refine ⟨rfl, fun k => ?_⟩
          simp only [if_true]
          by_cases hk : k = l.start
          · subst hk
            obtain ⟨b, hb'⟩ := Option.isSome_iff_exists.1 hmh
            rw [if_pos rfl, hb']
            simp [Disk.unflushed, hb']
          · rw [if_neg hk]; exact hw k hk
        | false =>
          have hn : mget d.writers l.start = none := by
            cases h : mget d.writers l.start with
            | none => rfl
            | some b => simp [mhas, h] at hmh
          simp only [Bool.false_eq_true, if_false]
          refine ⟨by rw [hs]; exact insertSeg_exists _ l pre hlt rfl, fun k => ?_⟩
          by_cases hk : k = l.start
          · subst hk; rw [mget_mset_same, if_pos rfl]; simp [Disk.unflushed, hn]
          · rw [mget_mset_ne _ _ hk, if_neg hk]; exact hw k hk
      refine ⟨fun hb s hs' => ?_, by simp [Disk.write, hopen.1]⟩
      simp only [Disk.write, hopen.1] at hs'
      have hext : ((d.openWriter l.start now).write l.start (record crc m)).content s
          = if s.start = l.start then d.content s ++ record crc m else d.content s := by
        unfold Disk.content Disk.unflushed Disk.write
        simp only
        rw [mget_mupd, hopen.2]
        by_cases hk : s.start = l.start
        · rw [if_pos hk, if_pos hk, if_pos hk, hk]
          simp [Disk.unflushed]
        · rw [if_neg hk, if_neg hk, if_neg hk, hw _ hk]
      rw [hext]
      by_cases hk : s.start = l.start
      · rw [if_pos hk]
        have hsl : s = l := by
          rw [hs] at hs'
          rcases List.mem_append.1 hs' with h | h
          · have := hlt s h; omega
          · exact List.mem_singleton.1 h
        rw [hsl]
        by_cases h0 : 0 < c.size
        · left
          have : ¬ max < c.size + (record crc m).length := fun h => hroll' ⟨h0, h⟩
          rw [List.length_append, ← hz]
          omega
        · refine .inr ⟨m, ?_⟩
          rw [List.length_eq_zero_iff.1 (show (d.content l).length = 0 by omega), List.nil_append]
      · rw [if_neg hk]; exact hb s hs'

end

section

variable {crc : Bytes → Nat} {base : Nat} {H : List Msg} {clock : Nat} {t : Topic} {f : Nat} {W : List Msg}

theorem DInv.due (h : DInv crc base H clock t f W) {m : Msg} {cs : List SCmd} (hc : t.chan = .append m :: cs) :
    m.seq = f + W.length := by
  have hn := h.num.drop (f - base)
  rw [← h.flow, show base + (f - base) = f by have := h.low; omega, hc] at hn
  exact hn W.length m (by simp [chanMsgs])

theorem DInv.sized (h : DInv crc base H clock t f W) (hb : t.disk.Bounded crc t.cfg.maxSegment) (e : Ev) :
    (t.step crc e).1.disk.Bounded crc t.cfg.maxSegment := by
  by_cases hw : e.writes = false
  · rw [(step_dframe t crc e hw).disk]; exact hb
  cases e with
  | storage at_ =>
    simp only [Topic.step]
    cases hc : t.chan with
    | nil => exact hb
    | cons c cs =>
      cases c with
      | append m =>
        have := h.disk.tail
        rw [← h.due hc] at this
        exact (this.append at_).1 hb
      | retention => exact hb.retain _ _
      | _ => exact hb
  | flush at_ =>
    simp only [Topic.step, Topic.flushAll]
    split
    · exact hb.flushAll at_
    · exact hb.flushAll at_
  | leak start n at_ => exact hb.leak _ _ _
  | closeHandle start at_ => exact hb.close _ _
  | send i =>
    simp only [Topic.step]
    split <;> exact hb
  | evictRun =>
    simp only [Topic.step]
    split <;> exact hb
  | retainDone =>
    simp only [Topic.step]
    split
    · simp only [Topic.applyOutcome]
      split <;> exact hb
    · exact hb
  | retainSend =>
    simp only [Topic.step]
    split <;> exact hb
  | _ => first | exact hb | exact absurd rfl hw

end

section

variable {crc : Bytes → Nat} {base : Nat} {H : List Msg} {now : Nat} {t : Topic} (hst : StartsWith crc base H now t)
include hst

/-- **C119** A file of messages never grows beyond the configured size, unless it holds a single message: not even by what
has been accepted and is still on its way to the file.  (`hb`: it was so at the start of the run; for a new topic there
is no file, and a restart leaves the files as they are.) -/
theorem C119_bounded_partial (hb : t.disk.Bounded crc t.cfg.maxSegment) (es : List Ev) (ho : Orderly now t es) :
    (t.run crc es).disk.Bounded crc t.cfg.maxSegment := by
  induction es using Verif.Wire.snoc_ind with
  | h0 => exact hb
  | h1 es e ih =>
    obtain ⟨_, _, f, W, hd⟩ := hst.run es ho.prefix
    have hcfg := run_cfg crc es t
    rw [run_append]
    have := hd.sized (by rw [hcfg]; exact ih ho.prefix) e
    rw [hcfg] at this
    exact this

/-- **C119** A new file is begun exactly if the newest one holds something and has no room for the next message; then the
new file is named after that message.  Otherwise the message goes to the newest file. -/
theorem C119_rolls_partial (es : List Ev) (ho : Orderly now t es) (m : Msg) (cs : List SCmd)
    (hc : (t.run crc es).chan = .append m :: cs) (at_ : Nat) :
    let d := (t.run crc es).disk
    ((t.run crc es).step crc (.storage at_)).1.disk.segs.map (·.start) = d.segs.map (·.start) ++
      (if d.segs = [] then [1]
       else if 0 < d.newest ∧ t.cfg.maxSegment < d.newest + (record crc m).length then [m.seq] else []) := by
  obtain ⟨_, _, f, W, hd⟩ := hst.run es ho
  have hcfg := run_cfg crc es t
  have ht := hd.disk.tail
  rw [← hd.due hc] at ht
  have := (ht.append (crc := crc) (max := t.cfg.maxSegment) at_).2
  simp only [Topic.step, hc, Topic.handle]
  rw [hcfg]
  exact this

end

/-- **C119** A restart leaves the sizes as they are: what was in no file is gone. -/
theorem C119_restart {crc : Bytes → Nat} {max : Nat} {t : Topic} (lossy : Bytes → Str) (hf : t.disk.writers = [])
    (h : t.disk.Bounded crc max) : (t.restart crc lossy).disk.Bounded crc max := by
  intro s hs
  have := h s hs
  unfold Disk.content Disk.unflushed at *
  rw [hf] at this
  exact this

namespace Ex

/-- Two publishers; the second message reaches the storage task first. -/
def esSwapped : List Ev := [.publish 5 [1], .publish 6 [2], .send 1, .send 0, .storage 10, .storage 11, .flush 12]

end Ex

/-- **C119 does not hold** when concurrent publishers reach the storage task in the wrong order: message 2 is written to
the first file, `1.log`; message 1 does not fit any more, and begins a file of its own name: `1.log`. -/
theorem C119_violated :
    (Ex.tL.run Ex.sum Ex.esSwapped).disk.segs.map (fun s => (s.start, s.data.length)) = [(1, 50)]
    ∧ Ex.tL.cfg.maxSegment = 30
    ∧ ¬ (Ex.tL.run Ex.sum Ex.esSwapped).disk.Bounded Ex.sum Ex.tL.cfg.maxSegment := by
  refine ⟨by decide, rfl, fun h => ?_⟩
  have hs : (Ex.tL.run Ex.sum Ex.esSwapped).disk.segs.map (fun s => (Ex.tL.run Ex.sum Ex.esSwapped).disk.content s) =
      [record Ex.sum ⟨2, 6, [2]⟩ ++ record Ex.sum ⟨1, 5, [1]⟩] := by decide
  obtain ⟨s, hs', he⟩ := List.mem_map.1 (hs ▸ List.mem_singleton.2 rfl :
    record Ex.sum ⟨2, 6, [2]⟩ ++ record Ex.sum ⟨1, 5, [1]⟩ ∈
      (Ex.tL.run Ex.sum Ex.esSwapped).disk.segs.map (fun s => (Ex.tL.run Ex.sum Ex.esSwapped).disk.content s))
  rcases h s hs' with h | ⟨m, h⟩
  · rw [he] at h
    exact absurd h (by decide)
  · rw [he] at h
    have hl := congrArg List.length h
    rw [record_length, List.length_append, record_length, record_length] at hl
    have hp : m.payload.length = 26 := by simp at hl; omega
    have h4 : (record Ex.sum m).take 4 = Wire.be32 42 := by
      unfold record
      rw [hp, List.append_assoc, List.take_left' (Wire.be32_length _)]
    rw [← h] at h4
    exact absurd h4 (by decide)

/-! The hypotheses can be met: three files of one message each; the second message does not fit into the first file. -/

example : Ex.tL.disk.Bounded Ex.sum Ex.tL.cfg.maxSegment := by intro s hs; cases hs

example : Orderly 0 Ex.tL Ex.esL ∧ (Ex.tL.run Ex.sum Ex.esL).disk.segs.map (fun s => (s.start, s.data.length)) =
    [(1, 25), (2, 25), (3, 25), (4, 25)] := by
  refine ⟨?_, by decide⟩
  have := Ex.orderlyLR
  exact this.prefix

end Verif.Stream
