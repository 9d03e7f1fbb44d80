import Verif.Proofs.StreamCodec

/-!
# What is in a file that is read back; the file of the groups; retention
-/

namespace Verif.Stream

open Wire

theorem u8_eq {x y : UInt8} (h : x.toNat = y.toNat) : x = y := UInt8.toNat_inj.mp h

theorem be32_beVal {b : Bytes} (h : b.length = 4) : be32 (beVal b) = b := by
  match b, h with
  | [w, x, y, z], _ =>
    have hw := w.toNat_lt; have hx := x.toNat_lt; have hy := y.toNat_lt; have hz := z.toNat_lt
    simp only [beVal, be32, List.foldl_cons, List.foldl_nil]
    simp only [List.cons.injEq, and_true]
    refine ⟨u8_eq ?_, u8_eq ?_, u8_eq ?_, u8_eq ?_⟩ <;>
      simp only [UInt8.toNat_ofNat'] <;> omega

theorem be32_mod (v : Nat) : be32 (v % 2 ^ 32) = be32 v := by
  unfold be32
  simp only [List.cons.injEq, and_true]
  refine ⟨u8_eq ?_, u8_eq ?_, u8_eq ?_, u8_eq ?_⟩ <;>
    simp only [UInt8.toNat_ofNat'] <;> omega

theorem be64_beVal {b : Bytes} (h : b.length = 8) : be64 (beVal b) = b := by
  have e : b = b.take 4 ++ b.drop 4 := (List.take_append_drop 4 b).symm
  have l1 : (b.take 4).length = 4 := by rw [List.length_take]; omega
  have l2 : (b.drop 4).length = 4 := by rw [List.length_drop]; omega
  have hv : beVal b = beVal (b.take 4) * 2 ^ 32 + beVal (b.drop 4) := by
    conv => lhs; rw [e]
    rw [beVal_append, l2]
  have b2 : beVal (b.drop 4) < 2 ^ 32 := by have := beVal_lt (b.drop 4); rw [l2] at this; exact this
  unfold be64
  have d : beVal b / 2 ^ 32 = beVal (b.take 4) := by rw [hv]; omega
  have m : be32 (beVal b) = be32 (beVal (b.drop 4)) := by
    rw [← be32_mod (beVal b), hv]
    congr 1; omega
  rw [d, m, be32_beVal l1, be32_beVal l2]
  exact e.symm

/-- What is parsed from at least sixteen bytes is what the bytes say. -/
theorem content_parse {c : Bytes} (h : 16 ≤ c.length) : content (parseContent c) = c := by
  unfold content parseContent
  simp only
  have l1 : (c.take 8).length = 8 := by rw [List.length_take]; omega
  have l2 : ((c.drop 8).take 8).length = 8 := by rw [List.length_take, List.length_drop]; omega
  rw [be64_beVal l1, be64_beVal l2, List.append_assoc]
  have : c.drop 16 = (c.drop 8).drop 8 := by rw [List.drop_drop]
  rw [this, List.take_append_drop, List.take_append_drop]

theorem takeRecord_shape {b : Bytes} {s : Nat} {c rest : Bytes} (h : takeRecord b = some (s, c, rest)) :
    b = be32 c.length ++ be32 s ++ c ++ rest := by
  unfold takeRecord at h
  split at h
  · cases h
  next h1 =>
  split at h
  · cases h
  next h2 =>
  split at h
  · cases h
  next h3 =>
  cases h
  have l1 : (b.take 4).length = 4 := by rw [List.length_take]; omega
  have l2 : ((b.drop 4).take 4).length = 4 := by rw [List.length_take]; omega
  have l3 : ((b.drop 8).take (beVal (b.take 4))).length = beVal (b.take 4) := by rw [List.length_take]; omega
  rw [l3, be32_beVal l1, be32_beVal l2, List.append_assoc, List.append_assoc, List.take_append_drop]
  have : b.drop 8 = (b.drop 4).drop 4 := by rw [List.drop_drop]
  rw [this, List.take_append_drop, List.take_append_drop]

/-- A record that passes the checks is an intact record of the message that is made of it. -/
theorem intact (crc : Bytes → Nat) {b : Bytes} {s : Nat} {c rest : Bytes} (h : takeRecord b = some (s, c, rest))
    (hc : crc c % 2 ^ 32 = s) (hl : 16 ≤ c.length) : b = record crc (parseContent c) ++ rest := by
  have hs := takeRecord_shape h
  have hp := content_parse hl
  have hlen : 8 + 8 + (parseContent c).payload.length = c.length := by
    have := congrArg List.length hp
    rw [content_length] at this; omega
  unfold record
  rw [hp, hlen, ← be32_mod (crc c), hc]
  exact hs

theorem loadLogN_intact (crc : Bytes → Nat) (n : Nat) : ∀ (b : Bytes), ∃ rest,
    b = records crc (loadLogN crc n b) ++ rest := by
  induction n with
  | zero => intro b; exact ⟨b, by simp [loadLogN, records]⟩
  | succ n ih =>
    intro b
    rw [loadLogN]
    cases ht : takeRecord b with
    | none => exact ⟨b, by simp [records]⟩
    | some r =>
      obtain ⟨s, c, rest⟩ := r
      simp only
      split
      · exact ⟨b, by simp [records]⟩
      · split
        · exact ⟨b, by simp [records]⟩
        next h1 h2 =>
        obtain ⟨r', hr'⟩ := ih rest
        refine ⟨r', ?_⟩
        have := intact crc ht (by simpa using h1) (by omega)
        rw [this]
        simp only [records, List.flatMap_cons, List.append_assoc]
        congr 1

theorem readLogN_intact (crc : Bytes → Nat) (start limit n : Nat) : ∀ (b : Bytes) (acc : List Msg) (m : Msg),
    m ∈ readLogN crc start limit n b acc → m ∈ acc ∨ ∃ pre post, b = pre ++ record crc m ++ post := by
  induction n with
  | zero => intro b acc m h; exact .inl h
  | succ n ih =>
    intro b acc m h
    rw [readLogN] at h
    cases ht : takeRecord b with
    | none => rw [ht] at h; exact .inl h
    | some r =>
      obtain ⟨s, c, rest⟩ := r
      simp only [ht] at h
      have hskip : (∃ pre post, rest = pre ++ record crc m ++ post) → ∃ pre post, b = pre ++ record crc m ++ post := by
        rintro ⟨pre, post, e⟩
        refine ⟨be32 c.length ++ be32 s ++ c ++ pre, post, ?_⟩
        rw [takeRecord_shape ht, e]
        simp
      split at h
      · exact (ih rest acc m h).imp id hskip
      next h1 =>
      split at h
      · exact (ih rest acc m h).imp id hskip
      next h2 =>
      have hin := intact crc ht (by simpa using h1) (by omega)
      have hnew : m ∈ acc ++ [parseContent c] → m ∈ acc ∨ ∃ pre post, b = pre ++ record crc m ++ post := by
        intro hm
        rcases List.mem_append.mp hm with hm | hm
        · exact .inl hm
        · have : m = parseContent c := by simpa using hm
          exact .inr ⟨[], rest, by rw [this]; simpa using hin⟩
      split at h
      · split at h
        · exact hnew h
        · rcases ih rest _ m h with h | h
          · exact hnew h
          · exact .inr (hskip h)
      · exact (ih rest acc m h).imp id hskip

/-! ### A damaged record -/

theorem readFrom_damaged (crc : Bytes → Nat) (start limit : Nat) {c : Bytes} {s : Nat} (hs : s < 2 ^ 32)
    (hl : c.length < 2 ^ 32) (hbad : crc c % 2 ^ 32 ≠ s) (rest : Bytes) (acc : List Msg) :
    readFrom crc start limit (be32 c.length ++ be32 s ++ c ++ rest) acc = readFrom crc start limit rest acc := by
  have ht := takeRecord_cat hs hl rest
  unfold readFrom
  rw [readLogN, ht]
  simp only
  rw [if_pos hbad]
  apply readLogN_fuel
  · simp [be32_length]; omega
  · omega
where
  takeRecord_cat {c : Bytes} {s : Nat} (hs : s < 2 ^ 32) (hl : c.length < 2 ^ 32) (rest : Bytes) :
      takeRecord (be32 c.length ++ be32 s ++ c ++ rest) = some (s, c, rest) := by
    have e : be32 c.length ++ be32 s ++ c ++ rest = be32 c.length ++ (be32 s ++ (c ++ rest)) := by simp
    have t4 : (be32 c.length ++ be32 s ++ c ++ rest).take 4 = be32 c.length := by
      rw [e]; exact List.take_left' (be32_length _)
    have d4 : (be32 c.length ++ be32 s ++ c ++ rest).drop 4 = be32 s ++ (c ++ rest) := by
      rw [e]; exact List.drop_left' (be32_length _)
    have d8 : (be32 c.length ++ be32 s ++ c ++ rest).drop 8 = c ++ rest := by
      rw [show (8 : Nat) = 4 + 4 from rfl, ← List.drop_drop, d4]
      exact List.drop_left' (be32_length _)
    unfold takeRecord
    rw [d8, d4, t4, beVal_be32_lt hl, if_neg (by simp [be32_length]),
      if_neg (by simp [be32_length]), if_neg (by simp),
      List.take_left' (be32_length _), beVal_be32_lt hs, List.take_left' rfl, List.drop_left' rfl]

theorem takeRecord_cat {c : Bytes} {s : Nat} (hs : s < 2 ^ 32) (hl : c.length < 2 ^ 32) (rest : Bytes) :
    takeRecord (be32 c.length ++ be32 s ++ c ++ rest) = some (s, c, rest) :=
  readFrom_damaged.takeRecord_cat hs hl rest

/-- Reading past complete records. -/
theorem readFrom_skip (crc : Bytes → Nat) (start limit : Nat) {ms : List Msg} (h : ∀ m ∈ ms, Fits m) (rest : Bytes)
    (acc : List Msg) (hacc : acc.length + (ms.filter (fun m => decide (start ≤ m.seq))).length < limit) :
    readFrom crc start limit (records crc ms ++ rest) acc
      = readFrom crc start limit rest (acc ++ ms.filter (fun m => decide (start ≤ m.seq))) := by
  induction ms generalizing acc with
  | nil => simp [records]
  | cons m ms ih =>
    have e : records crc (m :: ms) ++ rest = record crc m ++ (records crc ms ++ rest) := by simp [records]
    have ih := fun acc hacc => ih (fun x hx => h x (List.mem_cons_of_mem _ hx)) acc hacc
    rw [e, readFrom_record crc start limit (h m List.mem_cons_self)]
    by_cases hs : start ≤ m.seq
    · rw [List.filter_cons_of_pos (by simpa using hs)] at hacc ⊢
      rw [if_pos hs, if_neg (by simp at hacc; omega), ih (acc ++ [m]) (by simp at hacc ⊢; omega)]
      simp
    · rw [List.filter_cons_of_neg (by simpa using hs)] at hacc ⊢
      rw [if_neg hs, ih acc hacc]

theorem readFrom_full (crc : Bytes → Nat) (start limit : Nat) {ms : List Msg} (h : ∀ m ∈ ms, Fits m) (rest : Bytes)
    (acc : List Msg) (hacc : acc.length < limit)
    (hfull : limit ≤ acc.length + (ms.filter (fun m => decide (start ≤ m.seq))).length) :
    readFrom crc start limit (records crc ms ++ rest) acc
      = acc ++ (ms.filter (fun m => decide (start ≤ m.seq))).take (limit - acc.length) := by
  induction ms generalizing acc with
  | nil => simp at hfull; omega
  | cons m ms ih =>
    have e : records crc (m :: ms) ++ rest = record crc m ++ (records crc ms ++ rest) := by simp [records]
    have ih := fun acc hacc hfull => ih (fun x hx => h x (List.mem_cons_of_mem _ hx)) acc hacc hfull
    rw [e, readFrom_record crc start limit (h m List.mem_cons_self)]
    by_cases hs : start ≤ m.seq
    · rw [List.filter_cons_of_pos (by simpa using hs)] at hfull ⊢
      rw [if_pos hs]
      by_cases hl : limit ≤ acc.length + 1
      · rw [if_pos hl, show limit - acc.length = 1 by omega]; simp
      · rw [if_neg hl, ih (acc ++ [m]) (by simp; omega) (by simp at hfull ⊢; omega),
          show limit - acc.length = (limit - (acc ++ [m]).length) + 1 by simp; omega, List.take_succ_cons]
        simp
    · rw [List.filter_cons_of_neg (by simpa using hs)] at hfull ⊢
      rw [if_neg hs, ih acc hacc hfull]

/-- A damaged record between intact ones is left out. -/
theorem readLog_damaged (crc : Bytes → Nat) (start limit : Nat) {ms ms' : List Msg} (h : ∀ m ∈ ms, Fits m)
    (h' : ∀ m ∈ ms', Fits m) {c : Bytes} {s : Nat} (hs : s < 2 ^ 32) (hl : c.length < 2 ^ 32) (hbad : crc c % 2 ^ 32 ≠ s)
    (h0 : 0 < limit) :
    readLog crc (records crc ms ++ (be32 c.length ++ be32 s ++ c) ++ records crc ms') start limit
      = ((ms ++ ms').filter (fun m => decide (start ≤ m.seq))).take limit := by
  show readFrom crc start limit _ [] = _
  rw [List.append_assoc, List.filter_append]
  by_cases hc : (ms.filter (fun m => decide (start ≤ m.seq))).length < limit
  · rw [readFrom_skip crc start limit h _ [] (by simpa using hc), readFrom_damaged crc start limit hs hl hbad,
      ← List.append_nil (records crc ms'),
      readFrom_records crc start limit h' takeRecord_nil _ (by simpa using hc), List.take_append,
      List.take_of_length_le (Nat.le_of_lt hc)]
    simp
  · rw [readFrom_full crc start limit h _ [] h0 (by simp; omega), List.take_append_of_le_length (by omega)]
    simp

theorem loadLog_damaged (crc : Bytes → Nat) {ms : List Msg} (h : ∀ m ∈ ms, Fits m) {c : Bytes} {s : Nat}
    (hs : s < 2 ^ 32) (hl : c.length < 2 ^ 32) (hbad : crc c % 2 ^ 32 ≠ s) (rest : Bytes) :
    loadLog crc (records crc ms ++ (be32 c.length ++ be32 s ++ c) ++ rest) = ms := by
  rw [List.append_assoc, loadLog_records crc h, loadLog, loadLogN, takeRecord_cat hs hl rest]
  simp only
  rw [if_pos hbad, List.append_nil]

/-! ### The file of the groups -/

theorem be16_length (v : Nat) : (be16 v).length = 2 := rfl

theorem beVal_be16 {v : Nat} (h : v < 2 ^ 16) : beVal (be16 v) = v := by
  simp only [beVal, be16, List.foldl_cons, List.foldl_nil, UInt8.toNat_ofNat']
  omega

theorem groupContent_length (name : Str) (floor : Nat) : (groupContent name floor).length = 10 + name.length := by
  unfold groupContent
  simp only [List.length_append, be64_length, be16_length]

theorem loadGroupsN_fuel (crc : Bytes → Nat) (lossy : Bytes → Str) (n : Nat) :
    ∀ (n' : Nat) (b : Bytes) (acc : List (Str × Nat)), b.length < n → b.length < n' →
    loadGroupsN crc lossy n b acc = loadGroupsN crc lossy n' b acc := by
  induction n with
  | zero => intro n' b _ h; omega
  | succ n ih =>
    intro n' b acc h h'
    cases n' with
    | zero => omega
    | succ n' =>
      simp only [loadGroupsN]
      cases ht : takeRecord b with
      | none => rfl
      | some r =>
        obtain ⟨s, c, rest⟩ := r
        have hr := takeRecord_length ht
        simp only
        split
        · rfl
        · split
          · exact ih n' rest acc (by omega) (by omega)
          · split
            · exact ih n' rest acc (by omega) (by omega)
            · exact ih n' rest _ (by omega) (by omega)

theorem loadGroups_entry (crc : Bytes → Nat) (lossy : Bytes → Str) {name : Str} {floor : Nat}
    (hn : name.length < 2 ^ 16) (hf : floor < 2 ^ 64) (rest : Bytes) (acc : List (Str × Nat)) (n : Nat)
    (h : (groupEntry crc name floor ++ rest).length < n) :
    loadGroupsN crc lossy n (groupEntry crc name floor ++ rest) acc
      = loadGroupsN crc lossy n rest (mset acc (lossy name) floor) := by
  cases n with
  | zero => omega
  | succ n =>
    have hm : name.length % 2 ^ 16 = name.length := Nat.mod_eq_of_lt hn
    have hlen : (groupContent name floor).length = 8 + 2 + name.length := groupContent_length name floor
    have e : groupEntry crc name floor ++ rest
        = be32 (groupContent name floor).length ++ be32 (crc (groupContent name floor) % 2 ^ 32)
          ++ groupContent name floor ++ rest := by
      unfold groupEntry
      rw [hm, hlen, be32_mod]
    have ht : takeRecord (groupEntry crc name floor ++ rest)
        = some (crc (groupContent name floor) % 2 ^ 32, groupContent name floor, rest) := by
      rw [e]
      exact takeRecord_cat (Nat.mod_lt _ (by decide)) (by omega) rest
    have hl := takeRecord_length ht
    have c8 : (groupContent name floor).take 8 = be64 floor := by
      unfold groupContent; rw [List.append_assoc]; exact List.take_left' (be64_length _)
    have d8 : (groupContent name floor).drop 8 = be16 name.length ++ name := by
      unfold groupContent; rw [hm, List.append_assoc]; exact List.drop_left' (be64_length _)
    have d10 : (groupContent name floor).drop 10 = name := by
      rw [show (10 : Nat) = 8 + 2 from rfl, ← List.drop_drop, d8]; exact List.drop_left' (be16_length _)
    rw [loadGroupsN, ht]
    simp only
    rw [d8, d10, c8, List.take_left' (be16_length _), beVal_be16 hn, beVal_be64_lt hf, if_neg (by simp),
      if_neg (by omega), if_neg (by omega), List.take_length]
    apply loadGroupsN_fuel <;> omega

theorem loadGroups_entries (crc : Bytes → Nat) (lossy : Bytes → Str) (gs : List (Str × Nat))
    (hg : ∀ e ∈ gs, e.1.length < 2 ^ 16 ∧ e.2 < 2 ^ 64 ∧ lossy e.1 = e.1) (acc : List (Str × Nat)) (n : Nat)
    (hn : (groupsFile crc gs).length < n) :
    loadGroupsN crc lossy n (groupsFile crc gs) acc = gs.foldl (fun a e => mset a e.1 e.2) acc := by
  induction gs generalizing acc with
  | nil =>
    cases n with
    | zero => simp [groupsFile] at hn
    | succ n => rfl
  | cons e gs ih =>
    obtain ⟨h1, h2, h3⟩ := hg e List.mem_cons_self
    have es : groupsFile crc (e :: gs) = groupEntry crc e.1 e.2 ++ groupsFile crc gs := by simp [groupsFile]
    rw [es] at hn ⊢
    rw [loadGroups_entry crc lossy h1 h2 _ _ _ hn, h3, ih (fun x hx => hg x (List.mem_cons_of_mem _ hx))]
    · rfl
    · rw [List.length_append] at hn; omega

theorem foldl_mset_get (gs : List (Str × Nat)) (hnd : (mkeys gs).Nodup) (acc : List (Str × Nat)) (k : Str) :
    mget (gs.foldl (fun a e => mset a e.1 e.2) acc) k = (mget gs k).or (mget acc k) := by
  induction gs generalizing acc with
  | nil => rfl
  | cons e gs ih =>
    have hnd' : e.1 ∉ mkeys gs ∧ (mkeys gs).Nodup := List.nodup_cons.mp hnd
    rw [List.foldl_cons, ih hnd'.2, mget_cons]
    by_cases hk : e.1 = k
    · rw [if_pos hk]
      subst hk
      have : mget gs e.1 = none := mget_eq_none.mpr hnd'.1
      rw [this, mget_mset_same]
      rfl
    · rw [if_neg hk, mget_mset_ne acc e.2 (Ne.symm hk)]

/-- A file of zeros: every record is empty. -/
theorem loadGroups_zeros (crc : Bytes → Nat) (lossy : Bytes → Str) (fuel : Nat) : ∀ (n : Nat) (acc : List (Str × Nat)),
    loadGroupsN crc lossy fuel (List.replicate n 0) acc = acc := by
  induction fuel with
  | zero => intro n acc; rfl
  | succ fuel ih =>
    intro n acc
    rw [loadGroupsN]
    cases ht : takeRecord (List.replicate n 0) with
    | none => rfl
    | some r =>
      obtain ⟨s, c, rest⟩ := r
      have hz : ∃ k, rest = List.replicate k 0 ∧ c = [] := by
        unfold takeRecord at ht
        split at ht
        · cases ht
        next h1 =>
        split at ht
        · cases ht
        split at ht
        · cases ht
        cases ht
        have h4 : (List.replicate n (0 : UInt8)).take 4 = List.replicate 4 0 := by
          rw [List.take_replicate, Nat.min_eq_left]
          rw [List.length_replicate] at h1; omega
        have hv : beVal (List.replicate 4 (0 : UInt8)) = 0 := by decide
        refine ⟨n - 8, ?_, ?_⟩
        · rw [h4, hv, List.drop_zero, List.drop_replicate]
        · rw [h4, hv, List.take_zero]
      obtain ⟨k, h1, h2⟩ := hz
      subst h1 h2
      simp only
      split
      · rfl
      · rw [if_pos (by decide)]
        exact ih k acc

end Verif.Stream
