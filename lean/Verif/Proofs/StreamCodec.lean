import Verif.Spec.StreamDisk
import Verif.Proofs.Wire

/-!
# Records and files
-/

namespace Verif.Stream

open Wire

theorem content_length (m : Msg) : (content m).length = 16 + m.payload.length := by
  unfold content
  rw [List.length_append, List.length_append, be64_length, be64_length]

theorem record_length (crc : Bytes → Nat) (m : Msg) : (record crc m).length = 24 + m.payload.length := by
  unfold record
  rw [List.length_append, List.length_append, be32_length, be32_length, content_length]
  omega

theorem parse_content {m : Msg} (h : Fits m) : parseContent (content m) = m := by
  have h1 : (content m).take 8 = be64 m.seq := by
    unfold content
    rw [List.append_assoc]
    exact List.take_left' (be64_length _)
  have h2 : (content m).drop 8 = be64 m.timestamp ++ m.payload := by
    unfold content
    rw [List.append_assoc]
    exact List.drop_left' (be64_length _)
  have h3 : (content m).drop 16 = m.payload := by
    unfold content
    exact List.drop_left' (by rw [List.length_append, be64_length, be64_length])
  unfold parseContent
  rw [h1, h2, h3, List.take_left' (be64_length _), beVal_be64_lt h.2.1, beVal_be64_lt h.2.2]

/-- A record is taken off the front of a file. -/
theorem take_record (crc : Bytes → Nat) {m : Msg} (h : Fits m) (rest : Bytes) :
    takeRecord (record crc m ++ rest) = some (crc (content m) % 2 ^ 32, content m, rest) := by
  have e : record crc m ++ rest
      = be32 (8 + 8 + m.payload.length) ++ (be32 (crc (content m)) ++ (content m ++ rest)) := by
    unfold record; simp only [List.append_assoc]
  have hlen : 8 + 8 + m.payload.length = (content m).length := by rw [content_length]
  have h4 : (record crc m ++ rest).take 4 = be32 (8 + 8 + m.payload.length) := by
    rw [e]; exact List.take_left' (be32_length _)
  have d4 : (record crc m ++ rest).drop 4 = be32 (crc (content m)) ++ (content m ++ rest) := by
    rw [e]; exact List.drop_left' (be32_length _)
  have d8 : (record crc m ++ rest).drop 8 = content m ++ rest := by
    rw [show (8 : Nat) = 4 + 4 from rfl, ← List.drop_drop, d4]
    exact List.drop_left' (be32_length _)
  have hv : beVal (be32 (8 + 8 + m.payload.length)) = (content m).length := by
    rw [beVal_be32_lt (by have := h.1; omega), hlen]
  unfold takeRecord
  rw [d8, d4, h4, hv]
  rw [if_neg (by rw [List.length_append, record_length]; omega),
    if_neg (by rw [List.length_append, be32_length]; omega),
    if_neg (by rw [List.length_append]; omega),
    List.take_left' (be32_length _), beVal_be32, List.take_left' rfl, List.drop_left' rfl]

/-- An incomplete record is not taken. -/
theorem take_torn (crc : Bytes → Nat) {m : Msg} (h : Fits m) {n : Nat} (hn : n < (record crc m).length) :
    takeRecord ((record crc m).take n) = none := by
  have hl : ((record crc m).take n).length = n := by rw [List.length_take]; omega
  unfold takeRecord
  by_cases h4 : n < 4
  · rw [if_pos (by omega)]
  · rw [if_neg (by omega)]
    by_cases h8 : n < 8
    · rw [if_pos (by rw [List.length_drop]; omega)]
    · rw [if_neg (by rw [List.length_drop]; omega)]
      have ht : ((record crc m).take n).take 4 = be32 (8 + 8 + m.payload.length) := by
        rw [List.take_take, Nat.min_eq_left (by omega)]
        unfold record
        rw [List.append_assoc]
        exact List.take_left' (be32_length _)
      rw [ht, beVal_be32_lt (by have := h.1; omega)]
      rw [record_length] at hn
      rw [if_pos (by rw [List.length_drop]; omega)]

theorem takeRecord_length {b : Bytes} {s : Nat} {c rest : Bytes} (h : takeRecord b = some (s, c, rest)) :
    rest.length + 8 ≤ b.length := by
  unfold takeRecord at h
  split at h
  · cases h
  · split at h
    · cases h
    · split at h
      · cases h
      · cases h
        next h1 h2 h3 =>
        simp only [List.length_drop] at *
        omega

theorem takeRecord_nil : takeRecord [] = none := rfl

/-! ### Loading a segment -/

theorem loadLogN_fuel (crc : Bytes → Nat) (n : Nat) : ∀ (n' : Nat) (b : Bytes), b.length < n → b.length < n' →
    loadLogN crc n b = loadLogN crc n' b := by
  induction n with
  | zero => intro n' b h; omega
  | succ n ih =>
    intro n' b h h'
    cases n' with
    | zero => omega
    | succ n' =>
      simp only [loadLogN]
      cases ht : takeRecord b with
      | none => rfl
      | some r =>
        obtain ⟨s, c, rest⟩ := r
        have hr := takeRecord_length ht
        simp only
        split
        · rfl
        · split
          · rfl
          · rw [ih n' rest (by omega) (by omega)]

theorem loadLog_record (crc : Bytes → Nat) {m : Msg} (h : Fits m) (rest : Bytes) :
    loadLog crc (record crc m ++ rest) = m :: loadLog crc rest := by
  show loadLogN crc ((record crc m ++ rest).length + 1) (record crc m ++ rest) = m :: loadLogN crc (rest.length + 1) rest
  rw [loadLogN, take_record crc h]
  simp only
  rw [if_neg (by simp), if_neg (by rw [content_length]; omega), parse_content h]
  congr 1
  apply loadLogN_fuel
  · rw [List.length_append, record_length]; omega
  · omega

theorem loadLog_torn (crc : Bytes → Nat) {b : Bytes} (h : takeRecord b = none) : loadLog crc b = [] := by
  unfold loadLog; rw [loadLogN, h]

theorem loadLog_records (crc : Bytes → Nat) {ms : List Msg} (h : ∀ m ∈ ms, Fits m) (rest : Bytes) :
    loadLog crc (records crc ms ++ rest) = ms ++ loadLog crc rest := by
  induction ms with
  | nil => rfl
  | cons m ms ih =>
    have : records crc (m :: ms) ++ rest = record crc m ++ (records crc ms ++ rest) := by
      simp [records]
    rw [this, loadLog_record crc (h m List.mem_cons_self), ih (fun x hx => h x (List.mem_cons_of_mem _ hx))]
    rfl

/-! ### Reading a segment -/

theorem readLogN_fuel (crc : Bytes → Nat) (start limit n : Nat) : ∀ (n' : Nat) (b : Bytes) (acc : List Msg), b.length < n →
    b.length < n' → readLogN crc start limit n b acc = readLogN crc start limit n' b acc := by
  induction n with
  | zero => intro n' b _ h; omega
  | succ n ih =>
    intro n' b acc h h'
    cases n' with
    | zero => omega
    | succ n' =>
      simp only [readLogN]
      cases ht : takeRecord b with
      | none => rfl
      | some r =>
        obtain ⟨s, c, rest⟩ := r
        have hr := takeRecord_length ht
        simp only
        split
        · exact ih n' rest acc (by omega) (by omega)
        · split
          · exact ih n' rest acc (by omega) (by omega)
          · split
            · split
              · rfl
              · exact ih n' rest _ (by omega) (by omega)
            · exact ih n' rest acc (by omega) (by omega)

/-- Enough rounds. -/
def readFrom (crc : Bytes → Nat) (start limit : Nat) (b : Bytes) (acc : List Msg) : List Msg :=
  readLogN crc start limit (b.length + 1) b acc

theorem readFrom_record (crc : Bytes → Nat) (start limit : Nat) {m : Msg} (h : Fits m) (rest : Bytes) (acc : List Msg) :
    readFrom crc start limit (record crc m ++ rest) acc
      = if start ≤ m.seq then
          if limit ≤ acc.length + 1 then acc ++ [m] else readFrom crc start limit rest (acc ++ [m])
        else readFrom crc start limit rest acc := by
  unfold readFrom
  rw [readLogN, take_record crc h]
  simp only
  rw [if_neg (by simp), if_neg (by rw [content_length]; omega), parse_content h]
  simp only [List.length_append, List.length_cons, List.length_nil, Nat.zero_add]
  split
  · split
    · rfl
    · apply readLogN_fuel <;> (try rw [record_length]) <;> omega
  · apply readLogN_fuel <;> (try rw [record_length]) <;> omega

theorem readFrom_torn (crc : Bytes → Nat) (start limit : Nat) {b : Bytes} (h : takeRecord b = none) (acc : List Msg) :
    readFrom crc start limit b acc = acc := by
  unfold readFrom; rw [readLogN, h]

theorem readFrom_records (crc : Bytes → Nat) (start limit : Nat) {ms : List Msg} (h : ∀ m ∈ ms, Fits m) {torn : Bytes}
    (ht : takeRecord torn = none) (acc : List Msg) (hacc : acc.length < limit) :
    readFrom crc start limit (records crc ms ++ torn) acc
      = acc ++ (ms.filter (fun m => decide (start ≤ m.seq))).take (limit - acc.length) := by
  induction ms generalizing acc with
  | nil => simp [records, readFrom_torn crc start limit ht]
  | cons m ms ih =>
    have e : records crc (m :: ms) ++ torn = record crc m ++ (records crc ms ++ torn) := by simp [records]
    have hm := h m List.mem_cons_self
    have ih := fun acc hacc => ih (fun x hx => h x (List.mem_cons_of_mem _ hx)) acc hacc
    rw [e, readFrom_record crc start limit hm]
    by_cases hs : start ≤ m.seq
    · rw [if_pos hs, List.filter_cons_of_pos (by simpa using hs)]
      by_cases hl : limit ≤ acc.length + 1
      · rw [if_pos hl]
        have : limit - acc.length = 1 := by omega
        rw [this]
        simp
      · rw [if_neg hl, ih (acc ++ [m]) (by simp; omega)]
        have : limit - acc.length = (limit - (acc ++ [m]).length) + 1 := by simp; omega
        rw [this, List.take_succ_cons]
        simp
    · rw [if_neg hs, List.filter_cons_of_neg (by simpa using hs), ih acc hacc]

/-- What is read from a segment file with complete records and possibly the beginning of another one. -/
theorem readLog_records (crc : Bytes → Nat) (start limit : Nat) {ms : List Msg} (h : ∀ m ∈ ms, Fits m) {torn : Bytes}
    (ht : takeRecord torn = none) (hl : 0 < limit) :
    readLog crc (records crc ms ++ torn) start limit = (ms.filter (fun m => decide (start ≤ m.seq))).take limit := by
  have := readFrom_records crc start limit h ht [] hl
  simpa [readFrom, readLog] using this

/-! ### Cutting a file -/

/-- A file that is cut at any byte keeps exactly the complete records before the cut. -/
theorem cut (crc : Bytes → Nat) {ms : List Msg} (h : ∀ m ∈ ms, Fits m) (n : Nat) :
    ∃ k torn, k ≤ ms.length ∧ (records crc ms).take n = records crc (ms.take k) ++ torn ∧ takeRecord torn = none
      ∧ (records crc (ms.take k)).length ≤ n ∧ (k < ms.length → n < (records crc (ms.take (k + 1))).length)
      ∧ (k = ms.length → torn = []) := by
  induction ms generalizing n with
  | nil => exact ⟨0, [], Nat.le_refl _, by simp [records], rfl, by simp [records], (fun h => by simp at h), fun _ => rfl⟩
  | cons m ms ih =>
    have hm := h m List.mem_cons_self
    have e : records crc (m :: ms) = record crc m ++ records crc ms := by simp [records]
    by_cases hn : n < (record crc m).length
    · refine ⟨0, (record crc m).take n, Nat.zero_le _, ?_, take_torn crc hm hn, by simp [records], ?_, fun h => by simp at h⟩
      · rw [e, List.take_append_of_le_length (by omega)]; simp [records]
      · intro _; simpa [records] using hn
    · obtain ⟨k, torn, a1, a2, a3, a4, a5, a6⟩ := ih (fun x hx => h x (List.mem_cons_of_mem _ hx)) (n - (record crc m).length)
      have e2 : ∀ j, records crc ((m :: ms).take (j + 1)) = record crc m ++ records crc (ms.take j) := by
        intro j; simp [records]
      refine ⟨k + 1, torn, by simpa using a1, ?_, a3, ?_, ?_, ?_⟩
      · rw [e, e2, List.take_append, a2, List.take_of_length_le (by omega)]
        simp
      · rw [e2, List.length_append]; omega
      · intro hk
        rw [e2, List.length_append]
        have := a5 (by simpa using hk)
        omega
      · intro hk; exact a6 (by simpa using hk)

/-- The first complete records are kept if the cut is behind them. -/
theorem cut_ge {crc : Bytes → Nat} {ms : List Msg} {n k j : Nat}
    (h1 : k < ms.length → n < (records crc (ms.take (k + 1))).length) (hj : j ≤ ms.length)
    (h2 : (records crc (ms.take j)).length ≤ n) : j ≤ k := by
  apply Nat.le_of_not_lt
  intro hlt
  have := h1 (by omega)
  have hle : (records crc (ms.take (k + 1))).length ≤ (records crc (ms.take j)).length := by
    have : ms.take (k + 1) = (ms.take j).take (k + 1) := by rw [List.take_take, Nat.min_eq_left (by omega)]
    rw [this]
    conv => rhs; rw [← List.take_append_drop (k + 1) (ms.take j)]
    unfold records
    rw [List.flatMap_append, List.length_append]
    exact Nat.le_add_right _ _
  omega

theorem records_append (crc : Bytes → Nat) (a b : List Msg) : records crc (a ++ b) = records crc a ++ records crc b := by
  simp [records]

end Verif.Stream
