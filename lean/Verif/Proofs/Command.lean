import Verif.Proofs.Wire
import Verif.Spec.Command

/-!
# Lemmas about commands and answers
-/

namespace Verif.Wire

theorem Res.ok_bind {α β : Type} (a : α) (f : α → Res β) : ((Res.ok a : Res α) >>= f) = f a := rfl

theorem rdU32_be (n : Nat) (h : n < 2 ^ 32) (r : Bytes) : rdU32 (be32 n ++ r) = .ok (n, r) := by
  have hl := be32_length n
  have h1 : (be32 n ++ r).take 4 = be32 n := by rw [← hl]; exact List.take_left
  have h2 : (be32 n ++ r).drop 4 = r := by rw [← hl]; exact List.drop_left
  unfold rdU32 hasRemaining getInt
  rw [h1, h2, beVal_be32_lt h]
  simp [hl]

theorem rdU64_be (n : Nat) (h : n < 2 ^ 64) (r : Bytes) : rdU64 (be64 n ++ r) = .ok (n, r) := by
  have hl := be64_length n
  have h1 : (be64 n ++ r).take 8 = be64 n := by rw [← hl]; exact List.take_left
  have h2 : (be64 n ++ r).drop 8 = r := by rw [← hl]; exact List.drop_left
  unfold rdU64 hasRemaining getInt
  rw [h1, h2, beVal_be64_lt h]
  simp [hl]

theorem rdU8_cons (x : UInt8) (r : Bytes) : rdU8 (x :: r) = .ok (x.toNat, r) := by
  simp [rdU8, hasRemaining, getInt, beVal]

theorem rdString_ts {s : Str} (hl : s.length < 2 ^ 32) (hv : validUtf8 s = true) (r : Bytes) :
    rdString (tsString s ++ r) = .ok (s, r) := by
  unfold rdString tsString
  rw [List.append_assoc, rdU32_be _ hl]
  rw [Res.ok_bind]
  have h1 : (s ++ r).take s.length = s := List.take_left
  have h2 : (s ++ r).drop s.length = r := List.drop_left
  have h3 : ¬ ((s ++ r).length < s.length) := by rw [List.length_append]; omega
  have h4 : hasRemaining (s ++ r) s.length = true := by
    unfold hasRemaining; rw [List.length_append]; exact decide_eq_true (by omega)
  simp only [h4, getBytes, h3, if_false, h1, h2, Bool.not_true, Bool.false_eq_true, if_false]
  rw [Res.ok_bind]
  simp only [hv, if_true]

theorem rdString_ts_nil {s : Str} (hl : s.length < 2 ^ 32) (hv : validUtf8 s = true) :
    rdString (tsString s) = .ok (s, []) := by
  have := rdString_ts hl hv []
  rwa [List.append_nil] at this

theorem rdUuid_app {u : Bytes} (h : u.length = 16) (r : Bytes) : rdUuid (u ++ r) = .ok (u, r) := by
  have h1 : (u ++ r).take 16 = u := by rw [← h]; exact List.take_left
  have h2 : (u ++ r).drop 16 = r := by rw [← h]; exact List.drop_left
  unfold rdUuid hasRemaining getBytes
  rw [h1, h2]
  simp [h]

theorem rdUuid_nil {u : Bytes} (h : u.length = 16) : rdUuid u = .ok (u, []) := by
  have := rdUuid_app h []
  rwa [List.append_nil] at this

theorem rdRemaining_eq (b : Bytes) : rdRemaining b = .ok (b, []) := by
  unfold rdRemaining getBytes
  simp

theorem nibble_hexDigit {n : Nat} (h : n < 16) : nibble (hexDigit n) = some n ∧ hexDigit n ≠ 0x2D := by
  have : ∀ n : Fin 16, nibble (hexDigit n.val) = some n.val ∧ hexDigit n.val ≠ 0x2D := by decide
  exact this ⟨n, h⟩

theorem tsUuid_hexOf (b : Bytes) : tsUuid none (hexOf b) = some b := by
  induction b with
  | nil => rfl
  | cons x b ih =>
    have hx : x.toNat < 256 := UInt8.toNat_lt x
    obtain ⟨a1, a2⟩ := nibble_hexDigit (n := x.toNat / 16) (by omega)
    obtain ⟨b1, b2⟩ := nibble_hexDigit (n := x.toNat % 16) (by omega)
    show tsUuid none (hexDigit (x.toNat / 16) :: hexDigit (x.toNat % 16) :: hexOf b) = _
    unfold tsUuid
    rw [if_neg a2, a1]
    unfold tsUuid
    rw [if_neg b2, b1]
    simp only [ih, Option.map_some]
    rw [Nat.div_add_mod', UInt8.ofNat_toNat]
    first | done | rw [if_neg b2]

/-- Dashes are ignored wherever they are. -/
theorem tsUuid_dashes (high : Option Nat) (s : Str) : tsUuid high s = tsUuid high (s.filter (fun c => c ≠ 0x2D)) := by
  induction s generalizing high with
  | nil => rfl
  | cons c s ih =>
    by_cases hc : c = 0x2D
    · rw [List.filter_cons_of_neg (by simp [hc])]
      conv => lhs; unfold tsUuid
      rw [if_pos hc, ih]
    · rw [List.filter_cons_of_pos (by simp [hc])]
      conv => lhs; unfold tsUuid
      conv => rhs; unfold tsUuid
      rw [if_neg hc, if_neg hc]
      cases nibble c with
      | none => rfl
      | some n =>
        cases high with
        | none => exact ih _
        | some h => show Option.map _ _ = Option.map _ _; rw [ih]

/-! ### Panic freedom -/

theorem Res.bind_ne_panic {α β : Type} {x : Res α} {f : α → Res β} (hx : x ≠ .panic) (hf : ∀ a, x = .ok a → f a ≠ .panic) :
    (x >>= f) ≠ .panic := by
  cases x with
  | ok a => exact hf a rfl
  | err => exact fun h => by cases h
  | panic => exact absurd rfl hx

theorem rdU8_ne (b : Bytes) : rdU8 b ≠ .panic := by
  unfold rdU8 hasRemaining getInt
  by_cases h : b.length ≥ 1
  · rw [decide_eq_true h, if_neg (by simp), if_neg (by omega)]; exact fun h => by cases h
  · rw [decide_eq_false h, if_pos (by rfl)]; exact fun h => by cases h

theorem rdU32_ne (b : Bytes) : rdU32 b ≠ .panic := by
  unfold rdU32 hasRemaining getInt
  by_cases h : b.length ≥ 4
  · rw [decide_eq_true h, if_neg (by simp), if_neg (by omega)]; exact fun h => by cases h
  · rw [decide_eq_false h, if_pos (by rfl)]; exact fun h => by cases h

theorem rdU64_ne (b : Bytes) : rdU64 b ≠ .panic := by
  unfold rdU64 hasRemaining getInt
  by_cases h : b.length ≥ 8
  · rw [decide_eq_true h, if_neg (by simp), if_neg (by omega)]; exact fun h => by cases h
  · rw [decide_eq_false h, if_pos (by rfl)]; exact fun h => by cases h

theorem rdUuid_ne (b : Bytes) : rdUuid b ≠ .panic := by
  unfold rdUuid hasRemaining getBytes
  by_cases h : b.length ≥ 16
  · rw [decide_eq_true h, if_neg (by simp), if_neg (by omega)]; exact fun h => by cases h
  · rw [decide_eq_false h, if_pos (by rfl)]; exact fun h => by cases h

theorem rdRemaining_ne (b : Bytes) : rdRemaining b ≠ .panic := by
  rw [rdRemaining_eq]; exact fun h => by cases h

theorem rdString_ne (b : Bytes) : rdString b ≠ .panic := by
  unfold rdString
  refine Res.bind_ne_panic (rdU32_ne b) fun ⟨len, b⟩ _ => ?_
  show (if (!hasRemaining b len) = true then _ else _) ≠ _
  by_cases h : hasRemaining b len = true
  · rw [if_neg (by simp [h])]
    refine Res.bind_ne_panic ?_ fun ⟨c, r⟩ _ => ?_
    · unfold getBytes; rw [if_neg (by have := of_decide_eq_true h; omega)]; exact fun h => by cases h
    · show (if validUtf8 c = true then _ else _) ≠ _
      split <;> exact fun h => by cases h
  · rw [if_pos (by simp [h])]; exact fun h => by cases h

theorem ofOption_ne {α : Type} (o : Option α) : Res.ofOption o ≠ .panic := by
  cases o <;> exact fun h => by cases h

/-- Discharges the panic-freedom of a `do` block of readers. -/
macro "no_panic" : tactic => `(tactic|
  repeat' (first
    | exact rdString_ne _
    | exact rdU32_ne _
    | exact rdU64_ne _
    | exact rdU8_ne _
    | exact rdUuid_ne _
    | exact rdRemaining_ne _
    | exact ofOption_ne _
    | (intro h; cases h; done)
    | (refine Res.bind_ne_panic ?_ ?_)
    | (rintro ⟨_, _⟩ _)
    | (intro _ _)
    | split))

theorem parseStore_ne (sd : Serde) (op : UInt8) (b : Bytes) : parseStore sd op b ≠ .panic := by
  unfold parseStore
  no_panic

theorem parseQueue_ne (sd : Serde) (op : UInt8) (b : Bytes) : parseQueue sd op b ≠ .panic := by
  unfold parseQueue
  no_panic

theorem parsePubSub_ne (sd : Serde) (op : UInt8) (b : Bytes) : parsePubSub sd op b ≠ .panic := by
  unfold parsePubSub
  no_panic

theorem parseStream_ne (sd : Serde) (op : UInt8) (b : Bytes) : parseStream sd op b ≠ .panic := by
  unfold parseStream
  no_panic

theorem parse_ne (sd : Serde) (op : UInt8) (b : Bytes) : parse sd op b ≠ .panic := by
  unfold parse
  split
  · exact parseStore_ne sd op b
  · exact parseQueue_ne sd op b
  · exact parsePubSub_ne sd op b
  · exact parseStream_ne sd op b
  · exact fun h => by cases h
  · exact fun h => by cases h



/-! ### Commands -/

theorem parse_tsBody {sd : Serde} {pr : Printer} {cmd : Cmd} (hf : cmd.Fits) (hj : cmd.Json sd pr) :
    ∃ op body, tsBody pr cmd = some (op, body) ∧ parse sd op body = .ok cmd := by
  cases cmd with
  | mapSet key o v =>
    refine ⟨_, _, rfl, ?_⟩
    show parseStore sd 2 _ = _
    unfold parseStore
    simp only [List.append_assoc]
    show (rdString _ >>= _) = _
    rw [rdString_ts hf.1 hf.2, Res.ok_bind, rdString_ts hj.1.1 hj.1.2, Res.ok_bind, hj.2]
    simp only [Res.ofOption, Res.ok_bind, rdRemaining_eq]
  | mapGet key =>
    refine ⟨_, _, rfl, ?_⟩
    show (rdString _ >>= _) = _
    rw [rdString_ts_nil hf.1 hf.2, Res.ok_bind]
  | mapDel key =>
    refine ⟨_, _, rfl, ?_⟩
    show (rdString _ >>= _) = _
    rw [rdString_ts_nil hf.1 hf.2, Res.ok_bind]
  | qCreate q o =>
    refine ⟨_, _, rfl, ?_⟩
    show (rdString _ >>= _) = _
    rw [rdString_ts hf.1 hf.2, Res.ok_bind]
    simp only []
    rw [rdString_ts_nil hj.1.1 hj.1.2, Res.ok_bind, hj.2]
    rfl
  | qPush q o p =>
    refine ⟨_, _, rfl, ?_⟩
    simp only [List.append_assoc]
    show (rdString _ >>= _) = _
    rw [rdString_ts hf.1 hf.2, Res.ok_bind]
    simp only []
    rw [rdString_ts hj.1.1 hj.1.2, Res.ok_bind, hj.2]
    simp only [Res.ofOption, Res.ok_bind, rdRemaining_eq]
  | qConsume q o =>
    refine ⟨_, _, rfl, ?_⟩
    show (rdString _ >>= _) = _
    rw [rdString_ts hf.1 hf.2, Res.ok_bind]
    simp only []
    rw [rdString_ts_nil hj.1.1 hj.1.2, Res.ok_bind, hj.2]
    rfl
  | qAck id q =>
    refine ⟨0x13, id ++ tsString q, ?_, ?_⟩
    · show Option.map _ _ = _; rw [tsUuid_hexOf]; rfl
    show (rdUuid _ >>= _) = _
    rw [rdUuid_app hf.1, Res.ok_bind]
    simp only []
    rw [rdString_ts_nil hf.2.1 hf.2.2, Res.ok_bind]
  | qNack id q reason =>
    refine ⟨0x1A, id ++ tsString q ++ tsString reason, ?_, ?_⟩
    · show Option.map _ _ = _; rw [tsUuid_hexOf]; rfl
    simp only [List.append_assoc]
    show (rdUuid _ >>= _) = _
    rw [rdUuid_app hf.1, Res.ok_bind]
    simp only []
    rw [rdString_ts hf.2.1.1 hf.2.1.2, Res.ok_bind]
    simp only []
    rw [rdString_ts_nil hf.2.2.1 hf.2.2.2, Res.ok_bind]
  | qExists q =>
    refine ⟨_, _, rfl, ?_⟩
    show (rdString _ >>= _) = _
    rw [rdString_ts_nil hf.1 hf.2, Res.ok_bind]
  | qDelete q =>
    refine ⟨_, _, rfl, ?_⟩
    show (rdString _ >>= _) = _
    rw [rdString_ts_nil hf.1 hf.2, Res.ok_bind]
  | qPeek q l o =>
    refine ⟨_, _, rfl, ?_⟩
    simp only [List.append_assoc]
    show (rdString _ >>= _) = _
    rw [rdString_ts hf.1.1 hf.1.2, Res.ok_bind]
    simp only []
    rw [rdU32_be _ hf.2.1, Res.ok_bind]
    simp only []
    rw [← List.append_nil (be32 o), rdU32_be _ hf.2.2, Res.ok_bind]
  | qMove q id =>
    refine ⟨0x17, tsString q ++ id, ?_, ?_⟩
    · show Option.map _ _ = _; rw [tsUuid_hexOf]; rfl
    show (rdString _ >>= _) = _
    rw [rdString_ts hf.2.1 hf.2.2, Res.ok_bind]
    simp only []
    rw [rdUuid_nil hf.1, Res.ok_bind]
  | qDelDlq q id =>
    refine ⟨0x18, tsString q ++ id, ?_, ?_⟩
    · show Option.map _ _ = _; rw [tsUuid_hexOf]; rfl
    show (rdString _ >>= _) = _
    rw [rdString_ts hf.2.1 hf.2.2, Res.ok_bind]
    simp only []
    rw [rdUuid_nil hf.1, Res.ok_bind]
  | qPurge q =>
    refine ⟨_, _, rfl, ?_⟩
    show (rdString _ >>= _) = _
    rw [rdString_ts_nil hf.1 hf.2, Res.ok_bind]
  | publish t o p =>
    refine ⟨_, _, rfl, ?_⟩
    simp only [List.append_assoc]
    show (rdString _ >>= _) = _
    rw [rdString_ts hf.1 hf.2, Res.ok_bind]
    simp only []
    rw [rdString_ts hj.1.1 hj.1.2, Res.ok_bind, hj.2]
    simp only [Res.ofOption, Res.ok_bind, rdRemaining_eq]
  | subscribe t =>
    refine ⟨_, _, rfl, ?_⟩
    show (rdString _ >>= _) = _
    rw [rdString_ts_nil hf.1 hf.2, Res.ok_bind]
  | unsubscribe t =>
    refine ⟨_, _, rfl, ?_⟩
    show (rdString _ >>= _) = _
    rw [rdString_ts_nil hf.1 hf.2, Res.ok_bind]
  | sCreate t o =>
    refine ⟨_, _, rfl, ?_⟩
    show (rdString _ >>= _) = _
    rw [rdString_ts hf.1 hf.2, Res.ok_bind]
    simp only []
    rw [rdString_ts_nil hj.1.1 hj.1.2, Res.ok_bind, hj.2]
    rfl
  | sPub t p =>
    refine ⟨_, _, rfl, ?_⟩
    show (rdString _ >>= _) = _
    rw [rdString_ts hf.1 hf.2, Res.ok_bind]
    simp only [Res.ok_bind, rdRemaining_eq]
  | sFetch t g c gen l w =>
    refine ⟨_, _, rfl, ?_⟩
    obtain ⟨h1, h2, h3, h4, h5, h6⟩ := hf
    simp only [List.append_assoc]
    show (rdString _ >>= _) = _
    rw [rdString_ts h1.1 h1.2, Res.ok_bind]
    simp only []
    rw [rdString_ts h2.1 h2.2, Res.ok_bind]
    simp only []
    rw [rdString_ts h3.1 h3.2, Res.ok_bind]
    simp only []
    rw [rdU64_be _ h4, Res.ok_bind]
    simp only []
    rw [rdU32_be _ h5, Res.ok_bind]
    simp only []
    rw [← List.append_nil (be32 w), rdU32_be _ h6, Res.ok_bind]
  | sJoin g t =>
    refine ⟨_, _, rfl, ?_⟩
    show (rdString _ >>= _) = _
    rw [rdString_ts hf.1.1 hf.1.2, Res.ok_bind]
    simp only []
    rw [rdString_ts_nil hf.2.1 hf.2.2, Res.ok_bind]
  | sAck t g c gen seq =>
    refine ⟨_, _, rfl, ?_⟩
    obtain ⟨h1, h2, h3, h4, h5⟩ := hf
    simp only [List.append_assoc]
    show (rdString _ >>= _) = _
    rw [rdString_ts h1.1 h1.2, Res.ok_bind]
    simp only []
    rw [rdString_ts h2.1 h2.2, Res.ok_bind]
    simp only []
    rw [rdString_ts h3.1 h3.2, Res.ok_bind]
    simp only []
    rw [rdU64_be _ h4, Res.ok_bind]
    simp only []
    rw [← List.append_nil (be64 seq), rdU64_be _ h5, Res.ok_bind]
  | sSeek t g e =>
    refine ⟨_, _, rfl, ?_⟩
    simp only [List.append_assoc]
    show (rdString _ >>= _) = _
    rw [rdString_ts hf.1.1 hf.1.2, Res.ok_bind]
    simp only []
    rw [rdString_ts hf.2.1 hf.2.2, Res.ok_bind]
    simp only []
    rw [rdU8_cons, Res.ok_bind]
    cases e <;> rfl
  | sExists t =>
    refine ⟨_, _, rfl, ?_⟩
    show (rdString _ >>= _) = _
    rw [rdString_ts_nil hf.1 hf.2, Res.ok_bind]
  | sDelete t =>
    refine ⟨_, _, rfl, ?_⟩
    show (rdString _ >>= _) = _
    rw [rdString_ts_nil hf.1 hf.2, Res.ok_bind]
  | sLeave t g c gen =>
    refine ⟨_, _, rfl, ?_⟩
    obtain ⟨h1, h2, h3, h4⟩ := hf
    simp only [List.append_assoc]
    show (rdString _ >>= _) = _
    rw [rdString_ts h1.1 h1.2, Res.ok_bind]
    simp only []
    rw [rdString_ts h2.1 h2.2, Res.ok_bind]
    simp only []
    rw [rdString_ts h3.1 h3.2, Res.ok_bind]
    simp only []
    rw [← List.append_nil (be64 gen), rdU64_be _ h4, Res.ok_bind]

theorem Res.bind_ok {α β : Type} {x : Res α} {f : α → Res β} {b : β} (h : (x >>= f) = .ok b) :
    ∃ a, x = .ok a ∧ f a = .ok b := by
  cases x with
  | ok a => exact ⟨a, rfl, h⟩
  | err => cases h
  | panic => cases h

theorem parse_opcode {sd : Serde} {op : UInt8} {b : Bytes} {cmd : Cmd} (h : parse sd op b = .ok cmd) :
    cmd.opcode = op.toNat := by
  unfold parse at h
  split at h
  all_goals try (cases h; done)
  all_goals first | unfold parseStore at h | unfold parseQueue at h | unfold parsePubSub at h | unfold parseStream at h
  all_goals split at h
  all_goals
    rename_i heq
    repeat (obtain ⟨_, _, h⟩ := Res.bind_ok h)
    first
      | (cases h; exact heq.symm)
      | (cases h; done)
      | (simp only [] at h
         repeat' split at h
         all_goals first | (cases h; exact heq.symm) | (cases h; done))

/-! ### Answers -/

theorem some_bind {α β : Type} (a : α) (f : α → Option β) : ((some a : Option α) >>= f) = f a := rfl

theorem tsU32_be (n : Nat) (h : n < 2 ^ 32) (r : Bytes) : tsU32 (be32 n ++ r) = some (n, r) := by
  have hl := be32_length n
  have h1 : (be32 n ++ r).take 4 = be32 n := by rw [← hl]; exact List.take_left
  have h2 : (be32 n ++ r).drop 4 = r := by rw [← hl]; exact List.drop_left
  unfold tsU32
  rw [h1, h2, beVal_be32_lt h]
  simp [hl]

theorem tsU64_be (n : Nat) (h : n < 2 ^ 64) (r : Bytes) : tsU64 (be64 n ++ r) = some (n, r) := by
  have hl := be64_length n
  have h1 : (be64 n ++ r).take 8 = be64 n := by rw [← hl]; exact List.take_left
  have h2 : (be64 n ++ r).drop 8 = r := by rw [← hl]; exact List.drop_left
  unfold tsU64
  rw [h1, h2, beVal_be64_lt h]
  simp [hl]

theorem tsBuffer_app (a r : Bytes) : tsBuffer a.length (a ++ r) = (a, r) := by
  unfold tsBuffer; rw [List.take_left, List.drop_left]

theorem tsReadString_app (a : Str) (h : a.length < 2 ^ 32) (r : Bytes) :
    tsReadString (be32 a.length ++ (a ++ r)) = some (a, r) := by
  unfold tsReadString
  rw [tsU32_be _ h, Option.map_some, tsBuffer_app]

theorem tsReadUuid_app {u : Bytes} (h : u.length = 16) (r : Bytes) : tsReadUuid (u ++ r) = (hexOf u, r) := by
  unfold tsReadUuid; rw [← h, List.take_left, List.drop_left]

/-- `count` items one after the other. -/
theorem tsMany_flatMap {α β : Type} (one : Bytes → Option (β × Bytes)) (enc : α → Bytes) (dec : α → Option β)
    (xs : List α) (h : ∀ x ∈ xs, ∀ r, one (enc x ++ r) = (dec x).map (fun b => (b, r))) (r : Bytes) :
    tsMany one xs.length (xs.flatMap enc ++ r) = (xs.mapM dec).map (fun bs => (bs, r)) := by
  induction xs with
  | nil => rfl
  | cons x xs ih =>
    have hx := h x List.mem_cons_self (xs.flatMap enc ++ r)
    have hi := ih (fun y hy => h y (List.mem_cons_of_mem _ hy))
    rw [List.flatMap_cons, List.append_assoc, List.length_cons, tsMany, hx, List.mapM_cons]
    cases hd : dec x with
    | none => rfl
    | some b =>
      show (tsMany one xs.length (xs.flatMap enc ++ r)).map _ = _
      rw [hi]
      cases xs.mapM dec <;> rfl

theorem tsConsume_wire (msgs : List (Bytes × Bytes)) (hl : msgs.length < 2 ^ 32)
    (hm : ∀ m ∈ msgs, m.1.length = 16 ∧ m.2.length < 2 ^ 32) :
    tsConsume (wireConsume msgs) = msgs.mapM (fun m => (tsDecodeAny m.2).map (fun v => (hexOf m.1, v))) := by
  unfold tsConsume wireConsume
  rw [tsU32_be _ hl]
  show ((tsMany tsConsumeOne msgs.length (msgs.flatMap _)).map (·.1)) = _
  have := tsMany_flatMap tsConsumeOne (fun m : Bytes × Bytes => m.1 ++ be32 m.2.length ++ m.2)
    (fun m => (tsDecodeAny m.2).map (fun v => (hexOf m.1, v))) msgs (fun m hmem r => by
      unfold tsConsumeOne
      rw [List.append_assoc, List.append_assoc, tsReadUuid_app (hm m hmem).1]
      simp only []
      rw [tsU32_be _ (hm m hmem).2]
      show (do let v ← tsDecodeAny (tsBuffer m.2.length (m.2 ++ r)).1; some ((hexOf m.1, v), (tsBuffer m.2.length (m.2 ++ r)).2)) = _
      rw [tsBuffer_app]
      cases tsDecodeAny m.2 <;> rfl) []
  rw [List.append_nil] at this
  rw [this]
  cases msgs.mapM (fun m => (tsDecodeAny m.2).map (fun v => (hexOf m.1, v))) <;> rfl

theorem tsPeek_wire (total : Nat) (msgs : List DlqItem) (ht : total < 2 ^ 32) (hl : msgs.length < 2 ^ 32)
    (hm : ∀ m ∈ msgs, m.id.length = 16 ∧ m.payload.length < 2 ^ 32 ∧ m.attempts < 2 ^ 32 ∧ m.reason.length < 2 ^ 32) :
    tsPeek (wirePeek total msgs)
      = (msgs.mapM (fun m => (tsDecodeAny m.payload).map (fun v => (hexOf m.id, v, m.attempts, m.reason)))).map
          (fun r => (total, r)) := by
  unfold tsPeek wirePeek
  rw [List.append_assoc, tsU32_be _ ht]
  show (do let (count, b) ← tsU32 (be32 msgs.length ++ msgs.flatMap _); (tsMany tsPeekOne count b).map (fun (r : List (Str × Val × Nat × Str) × Bytes) => (total, r.1))) = _
  rw [tsU32_be _ hl]
  show ((tsMany tsPeekOne msgs.length (msgs.flatMap _)).map (fun r => (total, r.1))) = _
  have := tsMany_flatMap tsPeekOne
    (fun m : DlqItem => m.id ++ be32 m.payload.length ++ m.payload ++ be32 m.attempts ++ be32 m.reason.length ++ m.reason)
    (fun m => (tsDecodeAny m.payload).map (fun v => (hexOf m.id, v, m.attempts, m.reason))) msgs (fun m hmem r => by
      obtain ⟨h1, h2, h3, h4⟩ := hm m hmem
      unfold tsPeekOne
      simp only [List.append_assoc]
      rw [tsReadUuid_app h1]
      simp only []
      rw [tsU32_be _ h2]
      show (do
        let v ← tsDecodeAny (tsBuffer m.payload.length (m.payload ++ _)).1
        let (attempts, b) ← tsU32 (tsBuffer m.payload.length (m.payload ++ _)).2
        let (reason, b) ← tsReadString b
        some ((hexOf m.id, v, attempts, reason), b)) = _
      rw [tsBuffer_app]
      cases tsDecodeAny m.payload with
      | none => rfl
      | some v =>
        show (do
          let (attempts, b) ← tsU32 (be32 m.attempts ++ (be32 m.reason.length ++ (m.reason ++ r)))
          let (reason, b) ← tsReadString b
          some ((hexOf m.id, v, attempts, reason), b)) = _
        rw [tsU32_be _ h3]
        show (do
          let (reason, b) ← tsReadString (be32 m.reason.length ++ (m.reason ++ r))
          some ((hexOf m.id, v, m.attempts, reason), b)) = _
        rw [tsReadString_app _ h4]
        rfl) []
  rw [List.append_nil] at this
  rw [this]
  cases msgs.mapM (fun m => (tsDecodeAny m.payload).map (fun v => (hexOf m.id, v, m.attempts, m.reason))) <;> rfl

theorem tsFetch_wire (msgs : List SMsg) (hl : msgs.length < 2 ^ 32)
    (hm : ∀ m ∈ msgs, m.seq < 2 ^ 64 ∧ m.timestamp < 2 ^ 64 ∧ m.payload.length < 2 ^ 32) :
    tsFetch (wireFetch msgs) = msgs.mapM (fun m => (tsDecodeAny m.payload).map (fun v => (m.seq, v))) := by
  unfold tsFetch wireFetch
  rw [tsU32_be _ hl]
  show ((tsMany tsFetchOne msgs.length (msgs.flatMap _)).map (·.1)) = _
  have := tsMany_flatMap tsFetchOne (fun m : SMsg => be64 m.seq ++ be64 m.timestamp ++ be32 m.payload.length ++ m.payload)
    (fun m => (tsDecodeAny m.payload).map (fun v => (m.seq, v))) msgs (fun m hmem r => by
      obtain ⟨h1, h2, h3⟩ := hm m hmem
      unfold tsFetchOne
      simp only [List.append_assoc]
      rw [tsU64_be _ h1, some_bind]
      simp only []
      rw [tsU64_be _ h2, some_bind]
      simp only []
      rw [tsU32_be _ h3, some_bind]
      simp only []
      rw [tsBuffer_app]
      cases tsDecodeAny m.payload <;> rfl) []
  rw [List.append_nil] at this
  rw [this]
  cases msgs.mapM (fun m => (tsDecodeAny m.payload).map (fun v => (m.seq, v))) <;> rfl

theorem tsDecodeAny_tsAny {v : Val} (h : v.Writable) : tsDecodeAny (tsAny v) = some v := by
  cases v with
  | raw b => rfl
  | str s => rfl
  | json t =>
    have : t ≠ [] := fun ht => h (by rw [ht])
    show some (if t = [] then _ else _) = _
    rw [if_neg this]

theorem mapM_option_map {α β γ : Type} (g : α → Option β) (f : α → β → γ) (b : α → β) (xs : List α)
    (h : ∀ x ∈ xs, g x = some (b x)) :
    xs.mapM (fun x => (g x).map (f x)) = some (xs.map (fun x => f x (b x))) := by
  induction xs with
  | nil => rfl
  | cons x xs ih =>
    rw [List.mapM_cons, h x List.mem_cons_self, ih (fun y hy => h y (List.mem_cons_of_mem _ hy))]
    rfl

end Verif.Wire
