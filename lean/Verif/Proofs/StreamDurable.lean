import Verif.Proofs.StreamRetain
import Verif.Proofs.StreamCodec

/-!
# Invariant of the files of a topic

The segments hold the messages `W`, the first of which is number `f`; only the newest segment has an open writer.
-/

namespace Verif.Stream

/-! ### Names of segments -/

theorem starts_append (f : Nat) (a b : List (List Msg)) :
    starts f (a ++ b) = starts f a ++ starts (f + a.flatten.length) b := by
  induction a generalizing f with
  | nil => simp [starts]
  | cons p a ih =>
    simp only [List.cons_append, starts, ih, List.flatten_cons, List.length_append]
    rw [Nat.add_assoc]

theorem starts_length (f : Nat) (a : List (List Msg)) : (starts f a).length = a.length := by
  induction a generalizing f with
  | nil => rfl
  | cons p a ih => simp [starts, ih]

theorem starts_lt {f : Nat} {pp : List (List Msg)} (h : ∀ q ∈ pp, q ≠ []) {x : Nat} (hx : x ∈ starts f pp) :
    f ≤ x ∧ x < f + pp.flatten.length := by
  induction pp generalizing f with
  | nil => cases hx
  | cons p pp ih =>
    have hp := List.length_pos_iff.mpr (h p List.mem_cons_self)
    simp only [List.flatten_cons, List.length_append]
    rcases List.mem_cons.1 hx with hx | hx
    · omega
    · have := ih (fun q hq => h q (List.mem_cons_of_mem _ hq)) hx
      omega

theorem starts_sorted {f : Nat} {pp : List (List Msg)} (h : ∀ q ∈ pp, q ≠ []) : (starts f pp).Pairwise (· < ·) := by
  induction pp generalizing f with
  | nil => exact List.Pairwise.nil
  | cons p pp ih =>
    have hp := List.length_pos_iff.mpr (h p List.mem_cons_self)
    refine List.pairwise_cons.2 ⟨fun x hx => ?_, ih (fun q hq => h q (List.mem_cons_of_mem _ hq))⟩
    have := starts_lt (fun q hq => h q (List.mem_cons_of_mem _ hq)) hx
    omega

/-! ### The invariant -/

/-- The newest segment `l` with the contents `p`, of which `buf` has not reached the file; `pre` are the other
segments, with the contents `pp`. -/
structure Segs (crc : Bytes → Nat) (A : Prop) (clock f : Nat) (pre : List Seg) (l : Seg) (pp : List (List Msg))
    (p : List Msg) (buf : Bytes) : Prop where
  preStarts : pre.map (·.start) = starts f pp
  lStart : l.start = f + pp.flatten.length
  preData : pre.map (·.data) = pp.map (records crc)
  preNonempty : ∀ q ∈ pp, q ≠ []
  lData : l.data ++ buf = records crc p
  times : A → (pre ++ [l]).Pairwise (fun x y => x.mtime ≤ y.mtime)
  clocked : A → ∀ s ∈ pre ++ [l], s.mtime ≤ clock

/-- The files (`d`), the context and what is known to be flushed (`persisted`), when the messages `W` from number `f` on
have been written.  `A`: modification times matter. -/
inductive DiskInv (crc : Bytes → Nat) (A : Prop) (clock f : Nat) (W : List Msg) (d : Disk) (ctx : Option Ctx)
    (persisted : Nat) : Prop where
  | empty (hs : d.segs = []) (hw : d.writers = []) (hc : ctx = none) (hf : f = 1) (hW : W = []) (hp : persisted = 0)
  | files (pre : List Seg) (l : Seg) (pp : List (List Msg)) (p : List Msg) (buf : Bytes)
      (hs : d.segs = pre ++ [l]) (hW : W = pp.flatten ++ p) (hg : Segs crc A clock f pre l pp p buf)
      (hw : (d.writers = [] ∧ buf = []) ∨ d.writers = [(l.start, buf)])
      (hn : ctx = none → buf = [])
      (hc : ∀ c, ctx = some c → c.active = l.start ∧ c.size = (records crc p).length
        ∧ (c.dirty = true → c.highest + 1 = l.start + p.length ∧ p ≠ []) ∧ (c.dirty = false → buf = []))
      (hp : persisted + 1 ≤ l.start + p.length)
      (hd : ∀ j, j ≤ p.length → l.start + j ≤ persisted + 1 → (records crc (p.take j)).length ≤ l.data.length)

variable {crc : Bytes → Nat} {A : Prop} {clock f : Nat} {W : List Msg} {d : Disk} {ctx : Option Ctx} {persisted : Nat}

theorem Segs.preLt {pre : List Seg} {l : Seg} {pp : List (List Msg)} {p : List Msg} {buf : Bytes}
    (h : Segs crc A clock f pre l pp p buf) {s : Seg} (hs : s ∈ pre) : s.start < l.start := by
  have hm : s.start ∈ starts f pp := by rw [← h.preStarts]; exact List.mem_map_of_mem hs
  have := starts_lt h.preNonempty hm
  rw [h.lStart]; exact this.2

theorem Segs.sorted {pre : List Seg} {l : Seg} {pp : List (List Msg)} {p : List Msg} {buf : Bytes}
    (h : Segs crc A clock f pre l pp p buf) : (pre ++ [l]).Pairwise (fun x y => x.start < y.start) := by
  rw [List.pairwise_append]
  refine ⟨?_, List.pairwise_singleton _ _, fun s hs x hx => ?_⟩
  · have := starts_sorted (f := f) h.preNonempty
    rw [← h.preStarts, List.pairwise_map] at this
    exact this
  · rw [List.mem_singleton.1 hx]; exact h.preLt hs

theorem Segs.mono {pre : List Seg} {l : Seg} {pp : List (List Msg)} {p : List Msg} {buf : Bytes}
    (h : Segs crc A clock f pre l pp p buf) {now : Nat} (hc : A → clock ≤ now) : Segs crc A now f pre l pp p buf :=
  { h with clocked := fun a s hs => Nat.le_trans (h.clocked a s hs) (hc a) }

theorem DiskInv.mono (h : DiskInv crc A clock f W d ctx persisted) {now : Nat} (hc : A → clock ≤ now) :
    DiskInv crc A now f W d ctx persisted := by
  cases h with
  | empty h1 h2 h3 h4 h5 h6 => exact .empty h1 h2 h3 h4 h5 h6
  | files pre l pp p buf h1 h2 h3 h4 h5 h6 h7 h8 => exact .files pre l pp p buf h1 h2 (h3.mono hc) h4 h5 h6 h7 h8

/-- Bytes are written to the newest segment. -/
theorem Segs.write {pre : List Seg} {l : Seg} {pp : List (List Msg)} {p : List Msg} {buf : Bytes}
    (h : Segs crc A clock f pre l pp p buf) (n : Nat) {now : Nat} (hc : A → clock ≤ now) :
    writeSeg l.start (buf.take n) now (pre ++ [l]) = pre ++ [{ l with data := l.data ++ buf.take n, mtime := now }]
      ∧ Segs crc A now f pre { l with data := l.data ++ buf.take n, mtime := now } pp p (buf.drop n) := by
  refine ⟨?_, h.preStarts, h.lStart, h.preData, h.preNonempty, ?_, fun a => ?_, fun a s hs => ?_⟩
  · unfold writeSeg
    rw [List.map_append]
    congr 1
    · conv => rhs; rw [← List.map_id pre]
      apply List.map_congr_left
      intro s hs
      have := h.preLt hs
      rw [if_neg (by omega)]
      rfl
    · simp
  · simp only [List.append_assoc, List.take_append_drop]
    exact h.lData
  · have ht := List.pairwise_append.1 (h.times a)
    rw [List.pairwise_append]
    refine ⟨ht.1, List.pairwise_singleton _ _, fun s hs x hx => ?_⟩
    rw [List.mem_singleton.1 hx]
    exact Nat.le_trans (h.clocked a s (List.mem_append_left _ hs)) (hc a)
  · rcases List.mem_append.1 hs with hs | hs
    · exact Nat.le_trans (h.clocked a s (List.mem_append_left _ hs)) (hc a)
    · rw [List.mem_singleton.1 hs]
      exact Nat.le_refl _

theorem mget_single {k k' : Nat} {b : Bytes} : mget [(k, b)] k' = if k = k' then some b else none := rfl

theorem DiskInv.leak (h : DiskInv crc A clock f W d ctx persisted) (start n : Nat) {now : Nat} (hc : A → clock ≤ now) :
    DiskInv crc A now f W (d.leak start n now) ctx persisted := by
  have same : DiskInv crc A now f W d ctx persisted := h.mono hc
  unfold Disk.leak
  split
  · exact same
  · exact same
  · next x xs hx =>
    cases h with
    | empty h1 h2 => rw [h2] at hx; cases hx
    | files pre l pp p buf h1 h2 h3 h4 h5 h6 h7 h8 =>
      rcases h4 with ⟨h4, _⟩ | h4
      · rw [h4] at hx; cases hx
      · rw [h4, mget_single] at hx
        split at hx
        · next hst =>
          cases hx
          obtain ⟨e, hg⟩ := h3.write n hc
          refine .files pre { l with data := l.data ++ (x :: xs).take n, mtime := now } pp p ((x :: xs).drop n) ?_ h2 hg ?_ ?_ ?_ h7 ?_
          · simp only [h1, ← hst]; exact e
          · right
            simp only [h4, ← hst]
            simp [mset, mdel]
          · intro hnone; cases h5 hnone
          · intro c hcx
            obtain ⟨a1, a2, a3, a4⟩ := h6 c hcx
            exact ⟨a1, a2, a3, fun hd => by cases a4 hd⟩
          · intro j hj hj'
            have := h8 j hj hj'
            simp only [List.length_append]
            omega
        · cases hx

theorem DiskInv.flush (h : DiskInv crc A clock f W d ctx persisted) (start : Nat) {now : Nat} (hc : A → clock ≤ now) :
    DiskInv crc A now f W (d.flush start now) ctx persisted := by
  unfold Disk.flush
  split
  · exact h.mono hc
  · exact h.leak start _ hc

/-- A flushed segment has everything in its file. -/
theorem leak_all {start : Nat} {buf : Bytes} (hw : d.writers = [(start, buf)]) (now : Nat) :
    (d.flush start now).writers = [(start, [])] := by
  have hm : mget d.writers start = some buf := by rw [hw, mget_single, if_pos rfl]
  unfold Disk.flush
  simp only [hm]
  unfold Disk.leak
  cases buf with
  | nil => simp only [hm]; exact hw
  | cons x xs =>
    simp only [hm]
    rw [hw, List.drop_length]
    simp [mset, mdel]

/-- After `flush` and `close` of the newest segment. -/
theorem DiskInv.close (h : DiskInv crc A clock f W d ctx persisted) (start : Nat) {now : Nat} (hc : A → clock ≤ now) :
    DiskInv crc A now f W (d.close start now) ctx persisted := by
  have h' := h.flush start hc
  cases h' with
  | empty h1 h2 h3 h4 h5 h6 =>
    exact .empty h1 (by simp only [Disk.close, h2]; rfl) h3 h4 h5 h6
  | files pre l pp p buf h1 h2 h3 h4 h5 h6 h7 h8 =>
    rcases h4 with ⟨h4, hb⟩ | h4
    · exact .files pre l pp p buf h1 h2 h3 (.inl ⟨by simp only [Disk.close, h4]; rfl, hb⟩) h5 h6 h7 h8
    · by_cases hst : l.start = start
      · -- it was open before
        have hbuf : buf = [] := by
          cases hw : mget d.writers start with
          | none =>
            have : (d.flush start now).writers = d.writers := by unfold Disk.flush; rw [hw]
            rw [this] at h4
            rw [h4, mget_single, if_pos hst] at hw
            cases hw
          | some b =>
            have hd : d.writers = [(start, b)] := by
              cases h with
              | empty _ g2 => rw [g2] at hw; cases hw
              | files _ l' _ _ b' _ _ _ g4 =>
                rcases g4 with ⟨g4, _⟩ | g4
                · rw [g4] at hw; cases hw
                · rw [g4, mget_single] at hw
                  split at hw
                  · next e => cases hw; rw [g4, e]
                  · cases hw
            have := leak_all hd now
            rw [this] at h4
            simp only [List.cons.injEq, Prod.mk.injEq, and_true] at h4
            exact h4.2.symm
        subst hbuf
        refine .files pre l pp p [] h1 h2 h3 (.inl ⟨?_, rfl⟩) h5 h6 h7 h8
        simp only [Disk.close, h4]
        simp [mdel, hst]
      · refine .files pre l pp p buf h1 h2 h3 (.inr ?_) h5 h6 h7 h8
        simp only [Disk.close, h4]
        simp [mdel, hst]

/-- What `flush_all` leaves. -/
theorem DiskInv.flushAll (h : DiskInv crc A clock f W d ctx persisted) {now : Nat} (hc : A → clock ≤ now) :
    DiskInv crc A now f W (d.flushAll now) ctx persisted
      ∧ ((d.flushAll now).writers = [] ∨ ∃ s, (d.flushAll now).writers = [(s, [])]) := by
  have key : ∀ (dd : Disk), (dd.writers = [] → dd.flushAll now = dd)
      ∧ ∀ s b, dd.writers = [(s, b)] → dd.flushAll now = dd.flush s now := by
    intro dd
    refine ⟨fun hw => ?_, fun s b hw => ?_⟩ <;> unfold Disk.flushAll <;> rw [hw] <;> rfl
  cases h with
  | empty h1 h2 h3 h4 h5 h6 =>
    rw [(key d).1 h2]
    exact ⟨.empty h1 h2 h3 h4 h5 h6, .inl h2⟩
  | files pre l pp p buf h1 h2 h3 h4 h5 h6 h7 h8 =>
    have h : DiskInv crc A clock f W d ctx persisted := .files pre l pp p buf h1 h2 h3 h4 h5 h6 h7 h8
    rcases h4 with ⟨h4, _⟩ | h4
    · rw [(key d).1 h4]
      exact ⟨h.mono hc, .inl h4⟩
    · rw [(key d).2 _ _ h4]
      exact ⟨h.flush _ hc, .inr ⟨_, leak_all h4 now⟩⟩

/-- Everything that has been written is flushed. -/
theorem DiskInv.flushed (h : DiskInv crc A clock f W d ctx persisted)
    (hw : d.writers = [] ∨ ∃ s, d.writers = [(s, [])]) :
    (∀ c, ctx = some c → DiskInv crc A clock f W d
      (some (if c.dirty then { c with highest := 0, dirty := false } else c))
      (if c.dirty && decide (0 < c.highest) then c.highest else persisted))
      ∧ ∀ c, ctx = some c → persisted ≤ (if c.dirty && decide (0 < c.highest) then c.highest else persisted) := by
  cases h with
  | empty h1 h2 h3 h4 h5 h6 => rw [h3]; exact ⟨fun c hc => (by cases hc), fun c hc => (by cases hc)⟩
  | files pre l pp p buf h1 h2 h3 h4 h5 h6 h7 h8 =>
    have hbuf : buf = [] := by
      rcases h4 with ⟨_, h4⟩ | h4
      · exact h4
      · rcases hw with hw | ⟨s, hw⟩
        · rw [hw] at h4; cases h4
        · rw [hw] at h4
          simp only [List.cons.injEq, Prod.mk.injEq, and_true] at h4
          exact h4.2.symm
    subst hbuf
    have hfull : l.data = records crc p := by have := h3.lData; rwa [List.append_nil] at this
    refine ⟨fun c hc => ?_, fun c hc => ?_⟩
    · obtain ⟨a1, a2, a3, a4⟩ := h6 c hc
      refine .files pre l pp p [] h1 h2 h3 h4 (fun h => by cases h) ?_ ?_ ?_
      · intro c' hc'
        simp only [Option.some.injEq] at hc'
        rw [← hc']
        split
        · exact ⟨a1, a2, fun h => (by cases h), fun _ => rfl⟩
        · exact ⟨a1, a2, a3, fun _ => rfl⟩
      · split
        · next hd =>
          simp only [Bool.and_eq_true, decide_eq_true_eq] at hd
          have := (a3 hd.1).1
          omega
        · exact h7
      · intro j hj _
        rw [hfull]
        have : records crc p = records crc (p.take j) ++ records crc (p.drop j) := by
          rw [← records_append, List.take_append_drop]
        rw [this, List.length_append]
        omega
    · obtain ⟨a1, a2, a3, a4⟩ := h6 c hc
      split
      · next hd =>
        simp only [Bool.and_eq_true, decide_eq_true_eq] at hd
        have := (a3 hd.1).1
        omega
      · exact Nat.le_refl _

theorem insertSeg_last (s : Seg) (l : List Seg) (h : ∀ x ∈ l, x.start < s.start) : insertSeg s l = l ++ [s] := by
  induction l with
  | nil => rfl
  | cons t ts ih =>
    have ht := h t List.mem_cons_self
    rw [insertSeg, if_neg (by omega), if_neg (by omega), ih (fun x hx => h x (List.mem_cons_of_mem _ hx))]
    rfl

theorem insertSeg_exists (s : Seg) (l : Seg) (pre : List Seg) (h : ∀ x ∈ pre, x.start < l.start) (hs : s.start = l.start) :
    insertSeg s (pre ++ [l]) = pre ++ [l] := by
  induction pre with
  | nil => simp [insertSeg, hs]
  | cons t ts ih =>
    have ht := h t List.mem_cons_self
    rw [List.cons_append, insertSeg, if_neg (by omega), if_neg (by omega), ih (fun x hx => h x (List.mem_cons_of_mem _ hx))]

theorem records_snoc (p : List Msg) (m : Msg) : records crc (p ++ [m]) = records crc p ++ record crc m := by
  simp [records]

theorem record_pos (m : Msg) : 0 < (record crc m).length := by rw [record_length]; omega

/-- A record is appended. -/
theorem DiskInv.append (h : DiskInv crc A clock f W d ctx persisted) (maxSegment : Nat) (m : Msg)
    (hm : m.seq = f + W.length) {now : Nat} (hc : A → clock ≤ now) :
    DiskInv crc A now f (W ++ [m]) (appendTo crc maxSegment d (ctx.getD (Ctx.open d)) m now).1
      (some (appendTo crc maxSegment d (ctx.getD (Ctx.open d)) m now).2) persisted := by
  have hclose := fun s => h.close s hc
  cases h with
  | empty h1 h2 h3 h4 h5 h6 =>
    subst h3 h4 h5
    have hc0 : (none : Option Ctx).getD (Ctx.open d) = { active := 1, highest := 0, size := 0, dirty := false } := by
      simp [Ctx.open, h1]
    rw [hc0]
    have hroll : (Ctx.rolls { active := 1, highest := 0, size := 0, dirty := false } maxSegment (record crc m).length) = false := by
      simp [Ctx.rolls]
    have hm1 : m.seq = 1 := by simpa using hm
    unfold appendTo
    rw [hroll]
    have hnw : mhas d.writers 1 = false := by rw [h2]; rfl
    have hopen : (d.openWriter 1 now).segs = [{ start := 1, data := [], mtime := now }]
        ∧ (d.openWriter 1 now).writers = [(1, [])] := by
      unfold Disk.openWriter
      rw [hnw]
      simp only [Bool.false_eq_true, if_false, h1, h2]
      exact ⟨rfl, by simp [mset, mdel]⟩
    simp only [Bool.false_eq_true, if_false]
    refine .files [] { start := 1, data := [], mtime := now } [] [m] (record crc m) hopen.1 rfl ?_ (.inr ?_)
      (fun h => by cases h) ?_ ?_ ?_
    · exact ⟨rfl, rfl, rfl, (fun q hq => by cases hq), by simp [records], fun _ => List.pairwise_singleton _ _,
        fun _ s hs => by rw [List.mem_singleton.1 hs]; exact Nat.le_refl _⟩
    · simp only [Disk.write, hopen.2]; simp [mupd]
    · intro c hcc
      cases hcc
      refine ⟨rfl, by simp [records], fun _ => ⟨?_, by simp⟩, fun h => by cases h⟩
      simp only [List.length_singleton]; omega
    · simp only [List.length_singleton]; omega
    · intro j _ hj'
      simp only at hj'
      have : j = 0 := by omega
      subst this
      simp [records]
  | files pre l pp p buf h1 h2 h3 h4 h5 h6 h7 h8 =>
    have hW : f + W.length = l.start + p.length := by
      rw [h2, h3.lStart, List.length_append]; omega
    -- the context
    obtain ⟨c, hcdef⟩ : ∃ c, ctx.getD (Ctx.open d) = c := ⟨_, rfl⟩
    have hcc : c.active = l.start ∧ c.size = (records crc p).length := by
      cases ctx with
      | some c' =>
        have := h6 c' rfl
        simp only [Option.getD_some] at hcdef
        rw [← hcdef]; exact ⟨this.1, this.2.1⟩
      | none =>
        have hb := h5 rfl
        have hl := h3.lData
        rw [hb, List.append_nil] at hl
        simp only [Option.getD_none] at hcdef
        rw [← hcdef]
        simp only [Ctx.open, h1, List.getLast?_append, List.getLast?_singleton, Option.some_or, hl, and_self]
    rw [hcdef]
    obtain ⟨hact, hsize⟩ := hcc
    unfold appendTo
    split
    · next hroll =>
      have hpne : p ≠ [] := by
        intro hp0
        simp only [Ctx.rolls, Bool.and_eq_true, decide_eq_true_eq] at hroll
        rw [hsize, hp0] at hroll
        simp [records] at hroll
      have hcl := hclose c.active
      rw [hact] at hcl
      -- the closed files
      have : ∃ l', (d.close l.start now).segs = pre ++ [l'] ∧ (d.close l.start now).writers = []
          ∧ Segs crc A now f pre l' pp p [] := by
        have hwr : (d.close l.start now).writers = [] := by
          unfold Disk.close
          simp only
          rcases h4 with ⟨h4, _⟩ | h4
          · have : d.flush l.start now = d := by unfold Disk.flush; rw [h4]; rfl
            rw [this, h4]; rfl
          · rw [leak_all h4 now]; simp [mdel]
        rcases h4 with ⟨h4, hb⟩ | h4
        · have : (d.close l.start now).segs = d.segs := by
            show (d.flush l.start now).segs = d.segs
            unfold Disk.flush; rw [h4]; rfl
          exact ⟨l, this.trans h1, hwr, hb ▸ h3.mono hc⟩
        · have hm : mget d.writers l.start = some buf := by rw [h4, mget_single, if_pos rfl]
          cases hb : buf with
          | nil =>
            have : (d.close l.start now).segs = d.segs := by
              show (d.flush l.start now).segs = d.segs
              unfold Disk.flush; simp only [hm]; unfold Disk.leak; simp only [hm, hb]
            exact ⟨l, this.trans h1, hwr, hb ▸ h3.mono hc⟩
          | cons x xs =>
            obtain ⟨e, hg⟩ := h3.write buf.length hc
            refine ⟨{ l with data := l.data ++ buf.take buf.length, mtime := now }, ?_, hwr, ?_⟩
            · show (d.flush l.start now).segs = _
              unfold Disk.flush; simp only [hm]; unfold Disk.leak; simp only [hm]
              rw [hb]
              simp only
              rw [h1, ← hb]
              exact e
            · rw [List.drop_length] at hg; exact hg
      obtain ⟨l', hl1, hl2, hl3⟩ := this
      have hl'start : l'.start = l.start := by rw [hl3.lStart, h3.lStart]
      rw [hact]
      have hnh : mhas (d.close l.start now).writers m.seq = false := by rw [hl2]; rfl
      have hins : insertSeg { start := m.seq, data := [], mtime := now } (pre ++ [l'])
          = pre ++ [l'] ++ [{ start := m.seq, data := [], mtime := now }] := by
        apply insertSeg_last
        intro x hx
        have hpos := List.length_pos_iff.mpr hpne
        rcases List.mem_append.1 hx with hx | hx
        · have := hl3.preLt hx
          simp only; omega
        · rw [List.mem_singleton.1 hx]; simp only; omega
      have hopen : ((d.close l.start now).openWriter m.seq now).segs = pre ++ [l'] ++ [{ start := m.seq, data := [], mtime := now }]
          ∧ ((d.close l.start now).openWriter m.seq now).writers = [(m.seq, [])] := by
        unfold Disk.openWriter
        rw [hnh]
        simp only [Bool.false_eq_true, if_false, hl1, hl2]
        exact ⟨hins, by simp [mset, mdel]⟩
      refine .files (pre ++ [l']) { start := m.seq, data := [], mtime := now } (pp ++ [p]) [m] (record crc m) hopen.1 ?_ ?_ (.inr ?_)
        (fun h => by cases h) ?_ ?_ ?_
      · rw [h2]; simp
      · refine ⟨?_, ?_, ?_, ?_, ?_, ?_, ?_⟩
        · rw [List.map_append, starts_append, hl3.preStarts]
          simp [starts, hl3.lStart]
        · simp only [hm, h2]; simp
        · rw [List.map_append, List.map_append, hl3.preData]
          have := hl3.lData
          rw [List.append_nil] at this
          simp [this]
        · intro q hq
          rcases List.mem_append.1 hq with hq | hq
          · exact hl3.preNonempty q hq
          · rw [List.mem_singleton.1 hq]; exact hpne
        · simp [records]
        · intro a
          rw [List.pairwise_append]
          refine ⟨hl3.times a, List.pairwise_singleton _ _, fun s hs x hx => ?_⟩
          rw [List.mem_singleton.1 hx]
          exact hl3.clocked a s hs
        · intro a s hs
          rcases List.mem_append.1 hs with hs | hs
          · exact hl3.clocked a s hs
          · rw [List.mem_singleton.1 hs]; exact Nat.le_refl _
      · simp only [Disk.write, hopen.2]; simp [mupd]
      · intro c' hc'
        cases hc'
        refine ⟨rfl, by simp [records], fun _ => ⟨by simp, by simp⟩, fun h => by cases h⟩
      · simp only [List.length_singleton]; omega
      · intro j _ hj'
        simp only at hj'
        have : j = 0 := by omega
        subst this
        simp [records]
    · next hroll =>
      rw [hact]
      have hopen : (d.openWriter l.start now).segs = pre ++ [l] ∧ (d.openWriter l.start now).writers = [(l.start, buf)] := by
        unfold Disk.openWriter
        rcases h4 with ⟨h4, hb⟩ | h4
        · have : mhas d.writers l.start = false := by rw [h4]; rfl
          rw [this]
          simp only [Bool.false_eq_true, if_false, h1, h4, hb]
          refine ⟨insertSeg_exists _ l pre (fun x hx => h3.preLt hx) rfl, by simp [mset, mdel]⟩
        · have : mhas d.writers l.start = true := by rw [h4]; simp [mhas, mget]
          rw [this]
          simp only [if_true]
          exact ⟨h1, h4⟩
      refine .files pre l pp (p ++ [m]) (buf ++ record crc m) ?_ ?_ ?_ (.inr ?_) (fun h => by cases h) ?_ ?_ ?_
      · simp only [Disk.write]; exact hopen.1
      · rw [h2]; simp
      · have h3' := h3.mono hc
        exact { h3' with lData := by rw [records_snoc, ← h3.lData, List.append_assoc] }
      · simp only [Disk.write, hopen.2]
        simp [mupd]
      · intro c' hc'
        cases hc'
        refine ⟨rfl, ?_, fun _ => ⟨?_, by simp⟩, fun h => by cases h⟩
        · simp only [records_snoc, List.length_append, hsize]
        · simp only [List.length_append, List.length_singleton]; omega
      · simp only [List.length_append, List.length_singleton]; omega
      · intro j hj hj'
        have hj2 : j ≤ p.length := by omega
        rw [List.take_append_of_le_length hj2]
        exact h8 j hj2 hj'

/-- Retention removes a prefix. -/
theorem DiskInv.retain (h : DiskInv crc A clock f W d ctx persisted) (r : Retention) {now : Nat} (hc : A → clock ≤ now)
    (hA : r.maxAge ≠ none → A) :
    ∃ f' k, f' = f + k ∧ k ≤ W.length ∧ (d.retain r now).headSeq = f'
      ∧ DiskInv crc A now f' (W.drop k) (d.retain r now) ctx persisted := by
  cases h with
  | empty h1 h2 h3 h4 h5 h6 =>
    refine ⟨f, 0, rfl, Nat.zero_le _, ?_, .empty ?_ ?_ h3 h4 (by rw [h5]; rfl) h6⟩
    · simp [Disk.headSeq, Disk.retain, h1, retainSegs, h4]
    · simp [Disk.retain, h1, retainSegs]
    · simp [Disk.retain, h2]
  | files pre l pp p buf h1 h2 h3 h4 h5 h6 h7 h8 =>
    have hsuf : retainSegs r now (pre ++ [l]) <:+ pre ++ [l] :=
      retainSegs_suffix r now _ h3.sorted (by
        by_cases ha : r.maxAge = none
        · exact .inl ha
        · exact .inr (h3.times (hA ha)))
    have hlast := retainSegs_last r now (pre ++ [l])
    rw [List.getLast?_append, List.getLast?_singleton, Option.some_or] at hlast
    obtain ⟨gone, hgone⟩ := hsuf
    obtain ⟨pre', hpre'⟩ : ∃ pre', retainSegs r now (pre ++ [l]) = pre' ++ [l] := by
      rcases snoc_cases (retainSegs r now (pre ++ [l])) with hh | ⟨q, x, hh⟩
      · rw [hh] at hlast; cases hlast
      · rw [hh] at hlast ⊢
        simp only [List.getLast?_append, List.getLast?_singleton, Option.some_or, Option.some.injEq] at hlast
        exact ⟨q, by rw [hlast]⟩
    rw [hpre', ← List.append_assoc] at hgone
    have hsplit : gone ++ pre' = pre := List.append_cancel_right hgone
    -- the contents of the segments that are gone
    obtain ⟨gp, pp', hpp, hgl⟩ : ∃ gp pp', pp = gp ++ pp' ∧ gp.length = gone.length := by
      have hlen : pp.length = pre.length := by
        have := congrArg List.length h3.preStarts
        rw [List.length_map, starts_length] at this
        exact this.symm
      have hle : gone.length ≤ pp.length := by rw [hlen, ← hsplit, List.length_append]; omega
      exact ⟨pp.take gone.length, pp.drop gone.length, (List.take_append_drop _ _).symm, by rw [List.length_take]; omega⟩
    subst hpp
    have hst := h3.preStarts
    have hda := h3.preData
    rw [← hsplit, List.map_append, starts_append] at hst
    rw [← hsplit, List.map_append, List.map_append] at hda
    have hst' := List.append_inj hst (by rw [List.length_map, starts_length, hgl])
    have hda' := List.append_inj hda (by rw [List.length_map, List.length_map, hgl])
    have hsub : ∀ x ∈ pre' ++ [l], x ∈ pre ++ [l] := by
      intro x hx
      rw [← hsplit, List.append_assoc]
      exact List.mem_append_right _ hx
    refine ⟨f + gp.flatten.length, gp.flatten.length, rfl, ?_, ?_, ?_⟩
    · rw [h2]; simp only [List.flatten_append, List.length_append]; omega
    · simp only [Disk.headSeq, Disk.retain, h1, hpre']
      cases pre' with
      | nil =>
        cases pp' with
        | nil => simp only [List.nil_append, List.head?_cons, Option.map_some, Option.getD_some]; rw [h3.lStart]; simp
        | cons q qs => simp [starts] at hst'
      | cons x xs =>
        cases pp' with
        | nil => simp [starts] at hst'
        | cons q qs =>
          have := hst'.2
          simp only [List.map_cons, starts, List.cons.injEq] at this
          simpa using this.1
    · refine .files pre' l pp' p buf (by simp only [Disk.retain, h1, hpre']) ?_ ?_ ?_ h5 h6 h7 h8
      · rw [h2]; simp
      · refine ⟨hst'.2, ?_, hda'.2, fun q hq => h3.preNonempty q (List.mem_append_right _ hq), h3.lData, fun a => ?_, ?_⟩
        · rw [h3.lStart]; simp only [List.flatten_append, List.length_append]; omega
        · have := h3.times a
          rw [← hsplit, List.append_assoc, List.pairwise_append] at this
          exact this.2.1
        · intro a s hs
          exact Nat.le_trans (h3.clocked a s (hsub s hs)) (hc a)
      · rcases h4 with ⟨h4, hb⟩ | h4
        · exact .inl ⟨by simp [Disk.retain, h4], hb⟩
        · right
          simp only [Disk.retain, h1, hpre', h4]
          simp

end Verif.Stream
