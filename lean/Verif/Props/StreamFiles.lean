import Verif.Proofs.StreamFile
import Verif.Proofs.StreamRetain

/-!
# Properties of the files of a topic (C41, C55, C56)

`records crc ms` is the content of a segment file to which the messages `ms` have been written (`Spec/StreamDisk.lean`);
`loadLog` is what a restart reads from a file, `readLog … start limit` what a read request gets from it.  The checksum
`crc` is an arbitrary function.
-/

namespace Verif.Stream

open Wire (be32)

namespace Ex

/-- A checksum for the examples. -/
def sum : Bytes → Nat := fun b => (b.map (·.toNat)).sum

def m1 : Msg := { seq := 7, timestamp := 1000, payload := [1, 2, 3] }
def m2 : Msg := { seq := 8, timestamp := 1001, payload := [] }
def m3 : Msg := { seq := 9, timestamp := 1001, payload := [255] }

theorem fits3 : ∀ m ∈ [m1, m2, m3], Fits m := by
  intro m hm
  simp only [List.mem_cons, List.not_mem_nil, or_false] at hm
  rcases hm with rfl | rfl | rfl <;> exact ⟨by decide, by decide, by decide⟩

end Ex

/-! ### C55: records -/

/-- **C55** What has been written to a segment file is read back identically and in order, by a restart … -/
theorem C55_load (crc : Bytes → Nat) (ms : List Msg) (h : ∀ m ∈ ms, Fits m) : loadLog crc (records crc ms) = ms := by
  have := loadLog_records crc h []
  rwa [List.append_nil, loadLog_torn crc takeRecord_nil, List.append_nil] at this

/-- **C55** … and by a read request: the messages from its start on, up to its limit. -/
theorem C55_read (crc : Bytes → Nat) (ms : List Msg) (h : ∀ m ∈ ms, Fits m) (start limit : Nat) (hl : 0 < limit) :
    readLog crc (records crc ms) start limit = (ms.filter (fun m => start ≤ m.seq)).take limit := by
  have := readLog_records crc start limit h takeRecord_nil hl
  rwa [List.append_nil] at this

/-- **C55** If the file is cut at any byte `n`, exactly the records that are complete before the cut are recovered, by a
restart and by read requests. -/
theorem C55_cut (crc : Bytes → Nat) (ms : List Msg) (h : ∀ m ∈ ms, Fits m) (n : Nat) :
    ∃ k, k ≤ ms.length ∧ (∀ j, j ≤ ms.length → (j ≤ k ↔ (records crc (ms.take j)).length ≤ n))
      ∧ loadLog crc ((records crc ms).take n) = ms.take k
      ∧ ∀ start limit, 0 < limit →
          readLog crc ((records crc ms).take n) start limit = ((ms.take k).filter (fun m => start ≤ m.seq)).take limit := by
  obtain ⟨k, torn, h1, h2, h3, h4, h5, _⟩ := cut crc h n
  have hk : ∀ m ∈ ms.take k, Fits m := fun m hm => h m (List.mem_of_mem_take hm)
  refine ⟨k, h1, fun j hj => ⟨fun hjk => ?_, fun hjn => cut_ge h5 hj hjn⟩, ?_, fun start limit hl => ?_⟩
  · have e : ms.take k = ms.take j ++ (ms.take k).drop j := by
      conv => lhs; rw [← List.take_append_drop j (ms.take k)]
      rw [List.take_take, Nat.min_eq_left hjk]
    rw [e, records_append, List.length_append] at h4
    omega
  · rw [h2, loadLog_records crc hk, loadLog_torn crc h3, List.append_nil]
  · rw [h2, readLog_records crc start limit hk h3 hl]

/-- **C55** Whatever is in the file, what a restart takes from it are intact records at its beginning … -/
theorem C55_load_intact (crc : Bytes → Nat) (b : Bytes) : ∃ rest, b = records crc (loadLog crc b) ++ rest :=
  loadLogN_intact crc _ b

/-- **C55** … and every message that a read request gets from it is there as an intact record, with a correct checksum. -/
theorem C55_read_intact (crc : Bytes → Nat) (b : Bytes) (start limit : Nat) (m : Msg) (hm : m ∈ readLog crc b start limit) :
    ∃ pre post, b = pre ++ record crc m ++ post := by
  rcases readLogN_intact crc start limit _ b [] m hm with h | h
  · cases h
  · exact h

/-- **C55** A record whose content does not match its checksum is left out by read requests, and the records after it are
still found; a restart stops before it. -/
theorem C55_damaged (crc : Bytes → Nat) (ms ms' : List Msg) (h : ∀ m ∈ ms, Fits m) (h' : ∀ m ∈ ms', Fits m)
    (c : Bytes) (stored : Nat) (hs : stored < 2 ^ 32) (hc : c.length < 2 ^ 32) (hbad : crc c % 2 ^ 32 ≠ stored) :
    loadLog crc (records crc ms ++ (be32 c.length ++ be32 stored ++ c) ++ records crc ms') = ms
      ∧ ∀ start limit, 0 < limit →
          readLog crc (records crc ms ++ (be32 c.length ++ be32 stored ++ c) ++ records crc ms') start limit
            = ((ms ++ ms').filter (fun m => start ≤ m.seq)).take limit :=
  ⟨loadLog_damaged crc h hs hc hbad _, fun start limit hl => readLog_damaged crc start limit h h' hs hc hbad hl⟩

example : loadLog Ex.sum (records Ex.sum [Ex.m1, Ex.m2, Ex.m3]) = [Ex.m1, Ex.m2, Ex.m3] := C55_load _ _ Ex.fits3
example : (records Ex.sum [Ex.m1, Ex.m2, Ex.m3]).length = 76 := by decide
example : loadLog Ex.sum ((records Ex.sum [Ex.m1, Ex.m2, Ex.m3]).take 75) = [Ex.m1, Ex.m2] := by decide
example : loadLog Ex.sum ((records Ex.sum [Ex.m1, Ex.m2, Ex.m3]).take 50) = [Ex.m1] := by decide
example : readLog Ex.sum (records Ex.sum [Ex.m1, Ex.m2, Ex.m3]) 8 1 = [Ex.m2] := by decide
/-- A flipped byte in the second record. -/
example : readLog Ex.sum ((records Ex.sum [Ex.m1, Ex.m2, Ex.m3]).set 50 9) 1 10 = [Ex.m1, Ex.m3]
    ∧ loadLog Ex.sum ((records Ex.sum [Ex.m1, Ex.m2, Ex.m3]).set 50 9) = [Ex.m1] := by decide

/-! ### C56: saved progress -/

/-- **C56** (partial: names of fewer than 65536 bytes) The saved progress of the groups is read back: every group with
its position, and no other group.  `lossy` leaves valid names alone (group names are valid UTF-8). -/
theorem C56_round_trip_partial (crc : Bytes → Nat) (lossy : Bytes → Str) (gs : List (Str × Nat))
    (hd : (mkeys gs).Nodup) (hg : ∀ e ∈ gs, e.1.length < 2 ^ 16 ∧ e.2 < 2 ^ 64 ∧ lossy e.1 = e.1) (name : Str) :
    mget (loadGroups crc lossy (groupsFile crc gs)) name = mget gs name := by
  unfold loadGroups
  rw [loadGroups_entries crc lossy gs hg [] _ (by omega), foldl_mset_get gs hd]
  cases mget gs name <;> rfl

example : mget (loadGroups Ex.sum id (groupsFile Ex.sum [([103], 5), ([104, 105], 0), ([], 300)])) [104, 105] = some 0 := by
  decide
example : mget (loadGroups Ex.sum id (groupsFile Ex.sum [([103], 5), ([104, 105], 0), ([], 300)])) [1] = none := by
  decide

/-- **C56 does not hold** in full: the progress of a group whose name is 65536 zero bytes is lost, whatever the
checksum is. -/
theorem C56_violated (crc : Bytes → Nat) :
    mget (loadGroups crc id (groupsFile crc [(List.replicate 65536 0, 5)])) (List.replicate 65536 0) = none := by
  have hbig : (List.replicate 65536 (0 : UInt8)).length = 65536 := List.length_replicate
  have e : groupsFile crc [(List.replicate 65536 0, 5)]
      = be32 10 ++ be32 (crc (groupContent (List.replicate 65536 0) 5) % 2 ^ 32) ++ (Wire.be64 5 ++ be16 0)
        ++ List.replicate 65536 0 := by
    simp only [groupsFile, List.flatMap_cons, List.flatMap_nil, List.append_nil, groupEntry, be32_mod]
    rw [hbig]
    simp only [groupContent]
    rw [hbig]
    simp only [List.append_assoc]
  have ht : takeRecord (groupsFile crc [(List.replicate 65536 0, 5)])
      = some (crc (groupContent (List.replicate 65536 0) 5) % 2 ^ 32, Wire.be64 5 ++ be16 0, List.replicate 65536 0) := by
    rw [e]
    exact takeRecord_cat (c := Wire.be64 5 ++ be16 0) (Nat.mod_lt _ (by decide)) (by decide) _
  unfold loadGroups
  rw [loadGroupsN, ht]
  simp only
  split
  · rfl
  · rw [if_neg (by decide), if_neg (by decide), loadGroups_zeros]
    have hk : (Wire.be64 5 ++ be16 0).drop 10 = [] := by decide
    rw [hk]
    have hne : List.replicate 65536 (0 : UInt8) ≠ [] := by
      intro h
      have := congrArg List.length h
      rw [hbig] at this
      cases this
    rw [List.take_nil]
    exact mget_mset_ne [] _ hne

/-! ### C41: retention -/

/-- **C41** Retention deletes whole segments from the old end: what is left is unchanged and is the newest part of the
list.  (For the age limit: segments are last modified in the order of their numbers; `C41_prefix` in `StreamLog.lean`
shows that this is so in every history in which the clock does not go backwards.) -/
theorem C41_old_end (r : Retention) (now : Nat) (segs : List Seg)
    (hs : segs.Pairwise (fun x y => x.start < y.start))
    (hm : r.maxAge = none ∨ segs.Pairwise (fun x y => x.mtime ≤ y.mtime)) :
    ∃ gone, segs = gone ++ retainSegs r now segs := by
  obtain ⟨g, h⟩ := retainSegs_suffix r now segs hs hm
  exact ⟨g, h.symm⟩

/-- **C41** Retention never deletes the newest segment. -/
theorem C41_newest_kept (r : Retention) (now : Nat) (segs : List Seg) :
    (retainSegs r now segs).getLast? = segs.getLast? := retainSegs_last r now segs

/-- **C41** The age limit removes exactly the segments, other than the newest one, that have not been modified for
longer than the limit. -/
theorem C41_age_exact (age now : Nat) (segs : List Seg) (hs : segs.Pairwise (fun x y => x.start < y.start)) (s : Seg) :
    s ∈ retainSegs ⟨some age, none⟩ now segs
      ↔ s ∈ segs ∧ (segs.getLast? = some s ∨ now ≤ s.mtime + age) := by
  unfold retainSegs
  rcases snoc_cases segs with h | ⟨pre, l, h⟩
  · subst h; simp
  · subst h
    by_cases hp : pre = []
    · subst hp; simp; intro h; exact .inl h.symm
    · have hlen : ¬ (pre ++ [l]).length ≤ 1 := by
        have := List.length_pos_iff.mpr hp
        simp only [List.length_append, List.length_singleton]; omega
      rw [if_neg hlen]
      have hlt := (List.pairwise_append.1 hs).2.2
      simp only
      rw [ageKeep_snoc age now pre l (fun x hx => by have := hlt x hx l (List.mem_singleton.2 rfl); omega)]
      simp only [List.mem_append, List.mem_filter, List.mem_singleton, Bool.not_eq_true', decide_eq_false_iff_not,
        List.getLast?_append, List.getLast?_singleton, Option.some_or, Option.some.injEq]
      constructor
      · rintro (⟨h1, h2⟩ | h1)
        · exact ⟨.inl h1, .inr (by omega)⟩
        · exact ⟨.inr h1, .inl h1.symm⟩
      · rintro ⟨h1 | h1, h2 | h2⟩
        · exact .inr h2.symm
        · exact .inl ⟨h1, by omega⟩
        · exact .inr h1
        · exact .inr h1

/-- **C41** The size limit removes segments (of those that the age limit leaves) until the total fits or only the newest
segment is left, and not one more: before each removal the total was too large. -/
theorem C41_size_exact (age : Option Nat) (bytes now : Nat) (segs : List Seg) :
    ∃ gone, retainSegs ⟨age, none⟩ now segs = gone ++ retainSegs ⟨age, some bytes⟩ now segs
      ∧ (totalSize (retainSegs ⟨age, some bytes⟩ now segs) ≤ bytes ∨ (retainSegs ⟨age, some bytes⟩ now segs).length ≤ 1)
      ∧ ∀ before removed, gone = before ++ removed → removed ≠ [] →
          bytes < totalSize (removed ++ retainSegs ⟨age, some bytes⟩ now segs) := by
  unfold retainSegs
  split
  · next h => exact ⟨[], rfl, .inr h, fun a b hab hb => absurd (List.append_eq_nil_iff.1 hab.symm).2 hb⟩
  · cases age <;> exact sizeKeep_minimal bytes _

/-- **C41** With neither limit nothing is removed. -/
theorem C41_no_limits (now : Nat) (segs : List Seg) : retainSegs ⟨none, none⟩ now segs = segs := by
  unfold retainSegs; split <;> rfl

namespace Ex

def segs4 : List Seg := [⟨1, [1, 1, 1], 10⟩, ⟨5, [1, 1, 1, 1], 20⟩, ⟨9, [1], 30⟩, ⟨12, [1, 1], 40⟩]

end Ex

example : (retainSegs ⟨none, some 7⟩ 100 Ex.segs4).map (·.start) = [5, 9, 12] := by decide
example : (retainSegs ⟨none, some 1⟩ 100 Ex.segs4).map (·.start) = [12] := by decide
example : (retainSegs ⟨some 5, none⟩ 30 Ex.segs4).map (·.start) = [9, 12] := by decide
example : (retainSegs ⟨some 15, some 3⟩ 30 Ex.segs4).map (·.start) = [9, 12] := by decide
example : Ex.segs4.Pairwise (fun x y => x.start < y.start) ∧ Ex.segs4.Pairwise (fun x y => x.mtime ≤ y.mtime) := by decide
/-- Without the condition on the modification times a segment in the middle can be removed. -/
example : (retainSegs ⟨some 5, none⟩ 30 [⟨1, [], 30⟩, ⟨5, [], 20⟩, ⟨9, [], 30⟩]).map (·.start) = [1, 9] := by decide

end Verif.Stream
