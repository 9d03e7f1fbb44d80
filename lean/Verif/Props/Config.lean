import Verif.Spec.Config
import Verif.Proofs.StreamTrace
import Verif.Spec.StreamGroup

/-! # C113–C115: the settings -/

namespace Verif.Config

open Verif
open Verif.Rpc (ascii)

theorem digit_some {b : UInt8} {d : Nat} : digit b = some d ↔ IsDigit b ∧ d = b.toNat - 48 := by
  unfold digit IsDigit
  split
  · next h => simp [h, eq_comm]
  · next h => simp [h]

theorem digit_none {b : UInt8} : digit b = none ↔ ¬ IsDigit b := by
  unfold digit IsDigit
  split <;> simp_all

theorem valueFrom_ge (t : Str) : ∀ a, a ≤ t.foldl (fun a b => a * 10 + (b.toNat - 48)) a := by
  induction t with
  | nil => intro a; exact Nat.le_refl a
  | cons b t ih =>
    intro a
    have := ih (a * 10 + (b.toNat - 48))
    simp only [List.foldl_cons]
    omega

theorem parseLoop_some {max : Nat} (t : Str) : ∀ (a n : Nat), a ≤ max →
    (parseLoop max a t = some n ↔ (∀ b ∈ t, IsDigit b) ∧ t.foldl (fun a b => a * 10 + (b.toNat - 48)) a = n ∧ n ≤ max) := by
  induction t with
  | nil =>
    intro a n ha
    simp only [parseLoop, Option.some.injEq, List.not_mem_nil, false_implies, implies_true, List.foldl_nil, true_and]
    constructor
    · rintro rfl; exact ⟨rfl, ha⟩
    · exact fun h => h.1
  | cons b t ih =>
    intro a n ha
    simp only [parseLoop, List.foldl_cons, List.forall_mem_cons]
    cases hd : digit b with
    | none =>
      have := digit_none.1 hd
      simp [this]
    | some d =>
      obtain ⟨h1, h2⟩ := digit_some.1 hd
      subst h2
      have hge := valueFrom_ge t (a * 10 + (b.toNat - 48))
      by_cases h3 : a * 10 > max
      · simp only [h3, if_true, h1, true_and]
        constructor
        · intro h; cases h
        · rintro ⟨_, h4, h5⟩; omega
      · by_cases h4 : a * 10 + (b.toNat - 48) > max
        · simp only [h3, h4, if_false, if_true, h1, true_and]
          constructor
          · intro h; cases h
          · rintro ⟨_, h4, h5⟩; omega
        · simp only [h3, h4, if_false, h1, true_and]
          exact ih _ n (by omega)

theorem sign_not_digit : ¬ IsDigit 43 := by unfold IsDigit; decide
theorem minus_not_digit : ¬ IsDigit 45 := by unfold IsDigit; decide

/-- The numbers that the server understands are those of the type, in decimal. -/
theorem parseUint_some (bits : Nat) (s : Str) (n : Nat) : parseUint bits s = some n ↔ Written s n ∧ n < 2 ^ bits := by
  have hp : 0 < 2 ^ bits := Nat.pow_pos (by decide)
  have key : ∀ t : Str, t ≠ [] → (parseLoop (2 ^ bits - 1) 0 t = some n ↔ (∀ b ∈ t, IsDigit b) ∧ value t = n ∧ n < 2 ^ bits) := by
    intro t _
    rw [parseLoop_some t 0 n (Nat.zero_le _)]
    unfold value
    constructor
    · rintro ⟨a, b, c⟩; exact ⟨a, b, by omega⟩
    · rintro ⟨a, b, c⟩; exact ⟨a, b, by omega⟩
  match s with
  | [] =>
    simp only [parseUint]
    constructor
    · intro h; cases h
    · rintro ⟨⟨t, (rfl | h), h1, _⟩, _⟩
      · exact absurd rfl h1
      · cases h
  | [b] =>
    simp only [parseUint]
    by_cases hb : b = 43 ∨ b = 45
    · rw [if_pos hb]
      constructor
      · intro h; cases h
      · rintro ⟨⟨t, (rfl | h), h1, h2, _⟩, _⟩
        · have := h2 b List.mem_cons_self
          rcases hb with rfl | rfl
          · exact absurd this sign_not_digit
          · exact absurd this minus_not_digit
        · simp only [List.cons.injEq] at h
          exact absurd h.2.symm h1
    · rw [if_neg hb, key _ (by simp)]
      constructor
      · rintro ⟨h1, h2, h3⟩; exact ⟨⟨_, Or.inl rfl, by simp, h1, h2⟩, h3⟩
      · rintro ⟨⟨t, (rfl | h), h1, h2, h3⟩, h4⟩
        · exact ⟨h2, h3, h4⟩
        · simp only [List.cons.injEq] at h
          exact absurd (Or.inl h.1) hb
  | b :: b' :: u =>
    simp only [parseUint]
    by_cases hb : b = 43
    · subst hb
      rw [if_pos rfl, key _ (by simp)]
      constructor
      · rintro ⟨h1, h2, h3⟩; exact ⟨⟨_, Or.inr rfl, by simp, h1, h2⟩, h3⟩
      · rintro ⟨⟨t, (rfl | h), h1, h2, h3⟩, h4⟩
        · exact absurd (h2 43 List.mem_cons_self) sign_not_digit
        · simp only [List.cons.injEq, true_and] at h
          subst h
          exact ⟨h2, h3, h4⟩
    · rw [if_neg hb, key _ (by simp)]
      constructor
      · rintro ⟨h1, h2, h3⟩; exact ⟨⟨_, Or.inl rfl, by simp, h1, h2⟩, h3⟩
      · rintro ⟨⟨t, (rfl | h), h1, h2, h3⟩, h4⟩
        · exact ⟨h2, h3, h4⟩
        · simp only [List.cons.injEq] at h
          exact absurd h.1 hb

theorem parseUint_none (bits : Nat) (s : Str) : parseUint bits s = none ↔ ¬ ∃ n, Written s n ∧ n < 2 ^ bits := by
  rw [← Option.not_isSome_iff_eq_none, Option.isSome_iff_exists]
  simp only [parseUint_some]

/-! ### Where the values come from -/

theorem start_parts {v : Vars} {c : All} (h : start v = some c) :
    need v 16 "SERVER_SOCKET_TCP_PORT" "7654" = some c.server.port ∧ need v 16 "SERVER_DASHBOARD_HTTP_PORT" "8080" = some c.server.dashboardPort
    ∧ need v 64 "MAX_PAYLOAD_SIZE" "10485760" = some c.server.maxPayloadSize
    ∧ need v 64 "CHANNEL_CAPACITY_SOCKET_WRITE" "1024" = some c.server.channelCapacity
    ∧ c.server.host = text v "SERVER_HOST" "0.0.0.0" ∧ c.server.logLevel = text v "NEXO_LOG" "error"
    ∧ c.server.dashboardEnabled = decide (text v "NEXO_ENV" "dev" ≠ ascii "prod")
    ∧ c.store = Store.load v ∧ c.queue = Queue.load v ∧ c.pubsub = PubSub.load v ∧ c.stream = Stream.load v ∧ c.stream.maxOpenFiles ≠ 0 := by
  unfold start load Server.load at h
  split at h
  · next p d m ch hp hd hm hc =>
    simp only [Option.map_some, Option.bind_some] at h
    split at h
    · cases h
    · next hz =>
      simp only [Option.some.injEq] at h
      subst h
      exact ⟨hp, hd, hm, hc, rfl, rfl, rfl, rfl, rfl, rfl, rfl, hz⟩
  · cases h

/-- Broker settings. -/
theorem broker_get {v : Vars} {c : All} (h : start v = some c) : ∀ x ∈ brokerNums, x.get c = pick v x.bits x.key x.dflt := by
  obtain ⟨_, _, _, _, _, _, _, h1, h2, h3, h4, _⟩ := start_parts h
  simp only [brokerNums, List.forall_mem_cons, List.not_mem_nil, false_implies, implies_true, and_true, h1, h2, h3, h4]
  repeat' constructor

theorem need_eq {v : Vars} {bits : Nat} {key dflt : String} {n : Nat} (h : need v bits key dflt = some n) :
    (∀ s, v (ascii key) = some s → Written s n) ∧ (v (ascii key) = none → parseUint bits (ascii dflt) = some n) := by
  unfold need at h
  constructor
  · intro s hs
    rw [hs] at h
    exact ((parseUint_some _ _ _).1 h).1
  · intro hs
    rw [hs] at h
    exact h

theorem written_unique {s : Str} {n m : Nat} (h1 : Written s n) (h2 : Written s m) : n = m := by
  have hp : ∀ k, k < 2 ^ k := fun k => Nat.lt_two_pow_self
  have a := (parseUint_some (n + m) s n).2 ⟨h1, Nat.lt_of_le_of_lt (Nat.le_add_right n m) (hp _)⟩
  have b := (parseUint_some (n + m) s m).2 ⟨h2, Nat.lt_of_le_of_lt (Nat.le_add_left m n) (hp _)⟩
  rw [a] at b
  exact Option.some.inj b

theorem server_get {v : Vars} {c : All} (h : start v = some c) : ∀ x ∈ serverNums,
    (∀ s, v (ascii x.key) = some s → Written s (x.get c)) ∧ (v (ascii x.key) = none → x.get c = x.dflt) := by
  obtain ⟨h1, h2, h3, h4, _⟩ := start_parts h
  simp only [serverNums, List.forall_mem_cons, List.not_mem_nil, false_implies, implies_true, and_true]
  refine ⟨⟨(need_eq h1).1, fun hn => ?_⟩, ⟨(need_eq h2).1, fun hn => ?_⟩, ⟨(need_eq h3).1, fun hn => ?_⟩, ⟨(need_eq h4).1, fun hn => ?_⟩⟩
  · exact Option.some.inj (((need_eq h1).2 hn).symm.trans (by decide))
  · exact Option.some.inj (((need_eq h2).2 hn).symm.trans (by decide))
  · exact Option.some.inj (((need_eq h3).2 hn).symm.trans (by decide))
  · exact Option.some.inj (((need_eq h4).2 hn).symm.trans (by decide))

/-! ### C113 -/

/-- **C113** A numeric setting whose variable holds a decimal number of its size has that value. -/
theorem C113_set_partial {v : Vars} {c : All} (h : start v = some c) {x : Num} (hx : x ∈ serverNums ++ brokerNums) {s : Str} {n : Nat}
    (hs : v (ascii x.key) = some s) (hw : Written s n) (hn : n < 2 ^ x.bits) : x.get c = n := by
  rcases List.mem_append.1 hx with hx | hx
  · exact written_unique ((server_get h x hx).1 s hs) hw
  · rw [broker_get h x hx, pick, hs, Option.bind_some, (parseUint_some _ _ _).2 ⟨hw, hn⟩]
    rfl

/-- **C113** A numeric setting whose variable is not set has its default. -/
theorem C113_default {v : Vars} {c : All} (h : start v = some c) {x : Num} (hx : x ∈ serverNums ++ brokerNums) (hs : v (ascii x.key) = none) :
    x.get c = x.dflt := by
  rcases List.mem_append.1 hx with hx | hx
  · exact (server_get h x hx).2 hs
  · rw [broker_get h x hx, pick, hs]
    rfl

/-- **C113** A text setting has the value of its variable, or its default. -/
theorem C113_text {v : Vars} {c : All} (h : start v = some c) {x : Txt} (hx : x ∈ texts) :
    x.get c = (v (ascii x.key)).getD (ascii x.dflt) := by
  obtain ⟨_, _, _, _, h1, h2, _, _, h3, h4, h5, _⟩ := start_parts h
  revert x
  simp only [texts, List.forall_mem_cons, List.not_mem_nil, false_implies, implies_true, and_true, h1, h2, h3, h4, h5]
  repeat' constructor

/-- **C113** The dashboard is served unless `NEXO_ENV` is `prod`. -/
theorem C113_dashboard {v : Vars} {c : All} (h : start v = some c) :
    c.server.dashboardEnabled = false ↔ v (ascii "NEXO_ENV") = some (ascii "prod") := by
  obtain ⟨_, _, _, _, _, _, h1, _⟩ := start_parts h
  rw [h1]
  unfold text
  cases hv : v (ascii "NEXO_ENV") with
  | none => simp only [Option.getD_none]; decide
  | some s => simp

theorem need_none {v : Vars} {bits : Nat} {key dflt : String} (hd : (parseUint bits (ascii dflt)).isSome = true) :
    need v bits key dflt = none ↔ ∃ s, v (ascii key) = some s ∧ ¬ ∃ n, Written s n ∧ n < 2 ^ bits := by
  unfold need
  cases hv : v (ascii key) with
  | none =>
    simp only [Option.getD_none, reduceCtorEq, false_and, exists_false, iff_false]
    intro h
    rw [h] at hd
    cases hd
  | some s => simp only [Option.getD_some, Option.some.injEq, exists_eq_left', parseUint_none]

/-- **C113** The server refuses to start exactly if one of the server's own numbers is set to something else than a number of its size, or no
open files are allowed. -/
theorem C113_refused (v : Vars) : start v = none ↔
    (∃ x ∈ serverNums, ∃ s, v (ascii x.key) = some s ∧ ¬ x.Ok s) ∨ (∃ s, v (ascii "STREAM_MAX_OPEN_FILES") = some s ∧ Written s 0) := by
  have hz : (Stream.load v).maxOpenFiles = 0 ↔ ∃ s, v (ascii "STREAM_MAX_OPEN_FILES") = some s ∧ Written s 0 := by
    simp only [Stream.load, pick]
    cases hv : v (ascii "STREAM_MAX_OPEN_FILES") with
    | none => simp
    | some s =>
      simp only [Option.bind_some, Option.some.injEq, exists_eq_left']
      cases hp : parseUint 64 s with
      | none =>
        simp only [Option.getD_none, Nat.reduceEqDiff, false_iff]
        intro hw
        exact (parseUint_none 64 s).1 hp ⟨0, hw, by decide⟩
      | some m =>
        have hm := ((parseUint_some _ _ _).1 hp).1
        simp only [Option.getD_some]
        constructor
        · rintro rfl; exact hm
        · exact fun hw => written_unique hm hw
  have hs : (∃ x ∈ serverNums, ∃ s, v (ascii x.key) = some s ∧ ¬ x.Ok s) ↔
      need v 16 "SERVER_SOCKET_TCP_PORT" "7654" = none ∨ need v 16 "SERVER_DASHBOARD_HTTP_PORT" "8080" = none
      ∨ need v 64 "MAX_PAYLOAD_SIZE" "10485760" = none ∨ need v 64 "CHANNEL_CAPACITY_SOCKET_WRITE" "1024" = none := by
    rw [need_none (by decide), need_none (by decide), need_none (by decide), need_none (by decide)]
    simp only [serverNums, List.mem_cons, List.not_mem_nil, or_false, exists_eq_or_imp, exists_eq_left, Num.Ok]
  rw [hs, ← hz]
  unfold start load Server.load
  split
  · next h1 h2 h3 h4 =>
    simp only [h1, h2, h3, h4, reduceCtorEq, false_or, Option.map_some, Option.bind_some]
    split <;> simp_all
  · next hno =>
    simp only [Option.map_none, Option.bind_none, true_iff]
    refine Or.inl ?_
    rcases h1 : need v 16 "SERVER_SOCKET_TCP_PORT" "7654" with _ | p
    · exact Or.inl rfl
    rcases h2 : need v 16 "SERVER_DASHBOARD_HTTP_PORT" "8080" with _ | d
    · exact Or.inr (Or.inl rfl)
    rcases h3 : need v 64 "MAX_PAYLOAD_SIZE" "10485760" with _ | m
    · exact Or.inr (Or.inr (Or.inl rfl))
    rcases h4 : need v 64 "CHANNEL_CAPACITY_SOCKET_WRITE" "1024" with _ | ch
    · exact Or.inr (Or.inr (Or.inr rfl))
    exact absurd h4 (hno p d m ch h1 h2 h3)

/-- **C113** is violated for the brokers' numbers: a value that is not a number of the setting's size (a typing mistake, a unit, a negative or
fractional number) is not refused: the server starts, with the default. -/
theorem C113_ignored_violated {v : Vars} {c : All} (h : start v = some c) {x : Num} (hx : x ∈ brokerNums) {s : Str}
    (hs : v (ascii x.key) = some s) (hbad : ¬ x.Ok s) : x.get c = x.dflt := by
  rw [broker_get h x hx, pick, hs, Option.bind_some, (parseUint_none _ _).2 hbad]
  rfl

/-- **C113** Two environments in which the listed variables have the same values start the same server. -/
theorem C113_only {v w : Vars} (h : ∀ k ∈ keys, v (ascii k) = w (ascii k)) : start v = start w := by
  simp only [keys, serverNums, brokerNums, texts, List.map_cons, List.map_nil, List.cons_append, List.nil_append, List.forall_mem_cons,
    List.not_mem_nil, false_implies, implies_true, and_true] at h
  unfold start load Server.load Store.load Queue.load PubSub.load Stream.load need text pick
  simp only [h]

/-- **C113** is violated by the documentation: the variable that the guide names for the queues' flush interval (`docs/guide/queue.md:25`) has
no effect. -/
theorem C113_documented_violated (v : Vars) (s : Str) : start (v.set "NEXO_QUEUE_DEFAULT_FLUSH_MS" s) = start v := by
  refine C113_only (fun k hk => ?_)
  have : ∀ k ∈ keys, ascii k ≠ ascii "NEXO_QUEUE_DEFAULT_FLUSH_MS" := by decide +kernel
  simp [Vars.set, this k hk]

/-- **C113** is violated by `STREAM_RAM_HARD_LIMIT`: the setting is read, but the server behaves in the same way whatever it is: neither the
brokers nor the timers depend on it. -/
theorem C113_hard_limit_violated {v : Vars} {s : Str} {c c' : All} (h : start v = some c) (h' : start (v.set "STREAM_RAM_HARD_LIMIT" s) = some c') :
    (∀ supply env hub, c'.conf supply env hub = c.conf supply env hub) ∧ c'.period = c.period ∧ c'.server = c.server := by
  have hk : ∀ k ∈ keys, k ≠ "STREAM_RAM_HARD_LIMIT" → (v.set "STREAM_RAM_HARD_LIMIT" s) (ascii k) = v (ascii k) := by
    have : ∀ k ∈ keys, k ≠ "STREAM_RAM_HARD_LIMIT" → ascii k ≠ ascii "STREAM_RAM_HARD_LIMIT" := by decide +kernel
    intro k hk hne
    simp [Vars.set, this k hk hne]
  simp only [keys, serverNums, brokerNums, texts, List.map_cons, List.map_nil, List.cons_append, List.nil_append, List.forall_mem_cons,
    List.not_mem_nil, false_implies, implies_true, and_true, ne_eq, String.reduceEq, not_false_eq_true, not_true_eq_false, forall_const,
    true_implies, true_and] at hk
  have hl : ∃ r, c' = { c with stream := { c.stream with ramHardLimit := r } } := by
    unfold start load Server.load Store.load Queue.load PubSub.load Stream.load need text pick at h h'
    simp only [hk] at h'
    revert h h'
    split
    · intro h h'
      simp only [Option.map_some, Option.bind_some] at h h'
      split at h
      · cases h
      · split at h'
        · cases h'
        · simp only [Option.some.injEq] at h h'
          subst h h'
          exact ⟨_, rfl⟩
    · intro h; cases h
  obtain ⟨r, rfl⟩ := hl
  exact ⟨fun _ _ _ => rfl, funext (fun t => by cases t <;> rfl), rfl⟩

/-! ### C114 -/

theorem pick_zero {v : Vars} {key : String} {d : Nat} (hd : d ≠ 0) :
    pick v 64 key d = 0 ↔ ∃ s, v (ascii key) = some s ∧ Written s 0 := by
  unfold pick
  cases hv : v (ascii key) with
  | none => simpa using hd
  | some s =>
    simp only [Option.bind_some, Option.some.injEq, exists_eq_left']
    cases hp : parseUint 64 s with
    | none =>
      simp only [Option.getD_none, hd, false_iff]
      intro hw
      exact (parseUint_none 64 s).1 hp ⟨0, hw, by decide⟩
    | some m =>
      have hm := ((parseUint_some _ _ _).1 hp).1
      simp only [Option.getD_some]
      constructor
      · rintro rfl; exact hm
      · exact fun hw => written_unique hm hw

theorem ten_ne {n : Nat} (h : n ≠ 0) (h' : n ≤ 2 ^ 60) : n * 10 % 2 ^ 64 ≠ 0 := by
  have : n * 10 < 2 ^ 64 := Nat.lt_of_le_of_lt (Nat.mul_le_mul_right 10 h') (by decide)
  rw [Nat.mod_eq_of_lt this]
  exact Nat.mul_ne_zero h (by decide)

theorem period_zero {v : Vars} {c : All} (h : start v = some c) : ∀ x ∈ intervals, (∃ s, v (ascii x.2) = some s ∧ Written s 0) → c.period x.1 = 0 := by
  obtain ⟨_, _, _, _, _, _, _, h1, h2, h3, h4, _⟩ := start_parts h
  simp only [intervals, List.forall_mem_cons, List.not_mem_nil, false_implies, implies_true, and_true, All.period, h1, h2, h3, h4, Store.load, Queue.load,
    PubSub.load, Stream.load]
  refine ⟨(pick_zero (by decide)).2, (pick_zero (by decide)).2, (pick_zero (by decide)).2, (pick_zero (by decide)).2, (pick_zero (by decide)).2,
    (pick_zero (by decide)).2, fun hz => ?_, (pick_zero (by decide)).2⟩
  rw [(pick_zero (by decide)).2 hz]

/-- **C114** If no interval is set to zero (and that of the stream storage to no more than 2^60 ms), then all tasks of the server run. -/
theorem C114_runs_partial {v : Vars} {c : All} (h : start v = some c)
    (hz : ∀ x ∈ intervals, ∀ s, v (ascii x.2) = some s → ¬ Written s 0)
    (hbig : ∀ s n, v (ascii "STREAM_DEFAULT_FLUSH_MS") = some s → Written s n → n ≤ 2 ^ 60) (t : Timer) : c.runs t = true := by
  obtain ⟨_, _, _, _, _, _, _, h1, h2, h3, h4, _⟩ := start_parts h
  have hne : ∀ x ∈ intervals, ∀ d, d ≠ 0 → pick v 64 x.2 d ≠ 0 := by
    intro x hx d hd he
    obtain ⟨s, hs, hw⟩ := (pick_zero hd).1 he
    exact hz x hx s hs hw
  simp only [intervals, List.forall_mem_cons, List.not_mem_nil, false_implies, implies_true, and_true] at hne
  obtain ⟨a1, a2, a3, a4, a5, a6, _, a8⟩ := hne
  have hsb : pick v 64 "STREAM_DEFAULT_FLUSH_MS" 50 ≤ 2 ^ 60 := by
    unfold pick
    cases hv : v (ascii "STREAM_DEFAULT_FLUSH_MS") with
    | none => simp
    | some s =>
      simp only [Option.bind_some]
      cases hp : parseUint 64 s with
      | none => simp
      | some n => exact hbig s n hv ((parseUint_some _ _ _).1 hp).1
  simp only [All.runs, decide_eq_true_eq]
  cases t with
  | storeCleanup =>
    simp only [All.period, h1, h2, h3, h4, Store.load, Queue.load, PubSub.load, Stream.load]
    exact a1 60 (by decide)
  | retainedFlush =>
    simp only [All.period, h1, h2, h3, h4, Store.load, Queue.load, PubSub.load, Stream.load]
    exact a2 500 (by decide)
  | retainedCleanup =>
    simp only [All.period, h1, h2, h3, h4, Store.load, Queue.load, PubSub.load, Stream.load]
    exact a3 60 (by decide)
  | queueWriter =>
    simp only [All.period, h1, h2, h3, h4, Store.load, Queue.load, PubSub.load, Stream.load]
    exact a4 100 (by decide)
  | streamStorage =>
    simp only [All.period, h1, h2, h3, h4, Store.load, Queue.load, PubSub.load, Stream.load]
    exact a5 50 (by decide)
  | streamEviction =>
    simp only [All.period, h1, h2, h3, h4, Store.load, Queue.load, PubSub.load, Stream.load]
    exact a6 500 (by decide)
  | streamRetention =>
    simp only [All.period, h1, h2, h3, h4, Store.load, Queue.load, PubSub.load, Stream.load]
    exact a8 600000 (by decide)
  | queueTimeouts => simp [All.period]
  | streamRedelivery => simp [All.period]
  | streamGroups =>
    simp only [All.period, h1, h2, h3, h4, Store.load, Queue.load, PubSub.load, Stream.load]
    exact ten_ne (a5 50 (by decide)) hsb

/-- **C114** is violated: an interval of zero is accepted, the server starts, and the task of that interval does not run. -/
theorem C114_zero_violated {v : Vars} {c : All} (h : start v = some c) {x : Timer × String} (hx : x ∈ intervals) {s : Str}
    (hs : v (ascii x.2) = some s) (hw : Written s 0) : c.runs x.1 = false := by
  simp [All.runs, period_zero h x hx ⟨s, hs, hw⟩]

/-- **C114** Connections are served exactly if the capacity of their channels is set to a number from 1 to 2^61 - 1, or not set. -/
theorem C114_serves {v : Vars} {c : All} (h : start v = some c) :
    c.serves = true ↔ ∀ s, v (ascii "CHANNEL_CAPACITY_SOCKET_WRITE") = some s → ∃ n, Written s n ∧ 1 ≤ n ∧ n < 2 ^ 61 := by
  have hg := server_get h ⟨"CHANNEL_CAPACITY_SOCKET_WRITE", 64, 1024, (·.server.channelCapacity)⟩ (by simp [serverNums])
  simp only at hg
  simp only [All.serves, decide_eq_true_eq]
  constructor
  · rintro ⟨h1, h2⟩ s hs
    exact ⟨_, hg.1 s hs, by omega, by omega⟩
  · intro hs
    cases hv : v (ascii "CHANNEL_CAPACITY_SOCKET_WRITE") with
    | none => rw [hg.2 hv]; decide
    | some s =>
      obtain ⟨n, hw, h1, h2⟩ := hs s hv
      rw [written_unique (hg.1 s hv) hw]
      omega

theorem db_run {c : All} (hc : c.runs .queueWriter = false) (es : List Queue.Event) : ∀ (s : Queue.Sys), Permits c es →
    (s.run es).1.db = s.db := by
  induction es with
  | nil => intro s _; rfl
  | cons e t ih =>
    intro s hp
    have ht : Permits c t := fun n hn => hp n (List.mem_cons_of_mem _ hn)
    show ((s.step e).1.run t).1.db = s.db
    rw [ih _ ht]
    cases e with
    | commit n => exact absurd (hp n List.mem_cons_self) (by rw [hc]; decide)
    | op o => rfl
    | restart now => rfl

/-- **C114**, what that means for a queue: with `QUEUE_DEFAULT_FLUSH_MS=0` pushes are accepted and answered, and nothing is ever written: after a
restart the queue is empty, whatever was done before. -/
theorem C114_queue_violated {v : Vars} {c : All} (h : start v = some c) {s : Str} (hs : v (ascii "QUEUE_DEFAULT_FLUSH_MS") = some s)
    (hw : Written s 0) (cfg : Queue.Config) (es : List Queue.Event) (hp : Permits c es) (now : Nat) :
    ∃ cfg', ((Queue.Sys.new cfg).run (es ++ [.restart now])).1.q = Queue.QInner.empty cfg' := by
  have hc : c.runs .queueWriter = false :=
    C114_zero_violated h (x := (.queueWriter, "QUEUE_DEFAULT_FLUSH_MS")) (by simp [intervals]) hs hw
  have key : ∀ (es : List Queue.Event) (s : Queue.Sys), (s.run (es ++ [.restart now])).1 = ((s.run es).1.step (.restart now)).1 := by
    intro es
    induction es with
    | nil => intro s; rfl
    | cons e t ih => intro s; exact ih _
  rw [key]
  refine ⟨((Queue.Sys.new cfg).run es).1.q.cfg, ?_⟩
  show Queue.recover _ now ((Queue.Sys.new cfg).run es).1.db = _
  rw [db_run hc es _ hp]
  rfl

/-! ### C115 -/

theorem evictLoop_bound {soft p head : Nat} (ms : List Stream.Msg) (rs : Nat) (hw : ∀ i j : Nat, ∀ a b, ms[i]? = some a → ms[j]? = some b → i < j → a.seq < b.seq) :
    (Stream.Log.evictLoop soft p head ms rs).1.length ≤ soft ∨ ∀ m ∈ (Stream.Log.evictLoop soft p head ms rs).1, p < m.seq := by
  induction ms generalizing rs with
  | nil => left; simp [Stream.Log.evictLoop]
  | cons m t ih =>
    unfold Stream.Log.evictLoop
    split
    · split
      · exact ih _ (fun i j a b ha hb hij => hw (i + 1) (j + 1) a b ha hb (by omega))
      · next hm =>
        right
        intro x hx
        rcases List.mem_cons.1 hx with rfl | hx
        · omega
        · obtain ⟨i, hi, rfl⟩ := List.getElem_of_mem hx
          have := hw 0 (i + 1) m t[i] rfl (by simp [List.getElem?_eq_getElem hi]) (by omega)
          omega
    · next hl => left; simp only [] at hl ⊢; omega

theorem tryFetch_soft {t : Stream.Topic} (g c : Str) (gen limit now : Nat) : ((t.tryFetch g c gen limit now).1).log.softLimit = t.log.softLimit := by
  unfold Stream.Topic.tryFetch
  (repeat' split) <;> try rfl
  dsimp only
  (repeat' split) <;> rfl

theorem dropBindings_soft (order : Str → List Nat) (bs : List (Str × Str)) : ∀ t : Stream.Topic,
    (bs.foldl (Stream.Topic.dropBinding order) t).log.softLimit = t.log.softLimit := by
  induction bs with
  | nil => intro t; rfl
  | cons b bs ih =>
    intro t
    rw [List.foldl_cons, ih]
    unfold Stream.Topic.dropBinding
    (repeat' split) <;> rfl

theorem soft_step {crc : Bytes → Nat} {t : Stream.Topic} (e : Stream.Ev) : ((t.step crc e).1).log.softLimit = t.log.softLimit := by
  cases e <;> simp only [Stream.Topic.step, Stream.Topic.join, Stream.Topic.leave, Stream.Topic.disconnect, Stream.Topic.attempt, Stream.Topic.endFetch, Stream.Topic.finishCold, Stream.Topic.ack, Stream.Topic.seek, Stream.Topic.tick, Stream.Topic.saveGroups,
    Stream.Topic.applyOutcome, Stream.Topic.startRead, Stream.Topic.handle, Stream.Topic.flushAll, Stream.Log.append, Stream.Log.evict, Stream.Log.applyHead] <;> (repeat' split) <;>
    first | rfl | exact dropBindings_soft _ _ _ | exact tryFetch_soft _ _ _ _ _ | skip
theorem soft_run {crc : Bytes → Nat} (es : List Stream.Ev) : ∀ t : Stream.Topic, (t.run crc es).log.softLimit = t.log.softLimit := by
  induction es with
  | nil => intro t; rfl
  | cons e es ih => intro t; exact (ih _).trans (soft_step e)

/-- **C115** The soft limit of every topic is the setting. -/
theorem C115_setting {v : Vars} {c : All} (h : start v = some c) (supply : Nat → Queue.Id) (env : Rpc.Env) (hub : Rpc.HubEnv) (o : Wire.StreamOpts)
    {s : Str} {n : Nat} (hs : v (ascii "STREAM_RAM_SOFT_LIMIT") = some s) (hw : Written s n) (hn : n < 2 ^ 64) :
    (Stream.Topic.fresh env.crc (Rpc.topicCfg (c.conf supply env hub).stream.sys o)).cfg.softLimit = n :=
  C113_set_partial (x := ⟨"STREAM_RAM_SOFT_LIMIT", 64, 1000, (·.stream.ramSoftLimit)⟩) h (by simp [brokerNums]) hs hw hn

/-- **C115** After a round of the eviction task a topic holds in memory no more messages than the soft limit, or only messages that had not been
written to disk (their numbers are above the last one written) when the round began. -/
theorem C115_soft_partial {crc : Bytes → Nat} {t : Stream.Topic} (h : Stream.Started crc t) (es : List Stream.Ev) (p : Nat)
    (hp : (t.run crc es).evictReg = some p) :
    (((t.run crc es).step crc .evictRun).1.log.msgs.length ≤ t.cfg.softLimit)
      ∨ ∀ m ∈ ((t.run crc es).step crc .evictRun).1.log.msgs, p < m.seq := by
  obtain ⟨_, lossy, d, hd, ht⟩ := h
  have hi : Stream.TInv t := by rw [ht]; exact Stream.build_inv hd
  have hs : (t.run crc es).log.softLimit = t.cfg.softLimit := by
    rw [soft_run es t]
    have : t.log.softLimit = (Stream.Topic.build crc t.cfg lossy d).log.softLimit := congrArg (fun x => x.log.softLimit) ht
    rw [this]
    rfl
  have hw := (hi.run crc es).log.win
  have := evictLoop_bound (soft := (t.run crc es).log.softLimit) (p := p) (head := (t.run crc es).log.head) (t.run crc es).log.msgs
    (t.run crc es).log.ramStart (fun i j a b ha hb hij => by rw [hw i a ha, hw j b hb]; omega)
  rw [← hs]
  simp only [Stream.Topic.step, hp, Stream.Log.evict]
  exact this

/-- `n` requests to publish `payload`. -/
def flood (payload : Bytes) (n : Nat) : List Stream.Ev := (List.replicate n [Stream.Ev.publish 0 payload, .send 0]).flatten

theorem flood_run {crc : Bytes → Nat} (payload : Bytes) (n : Nat) : ∀ t : Stream.Topic, t.sends = [] →
    (t.run crc (flood payload n)).log.msgs.length = t.log.msgs.length + n ∧ (t.run crc (flood payload n)).persisted = t.persisted := by
  induction n with
  | zero => intro t _; exact ⟨rfl, rfl⟩
  | succ n ih =>
    intro t ht
    have hf : flood payload (n + 1) = Stream.Ev.publish 0 payload :: .send 0 :: flood payload n := rfl
    rw [hf]
    have e : t.run crc (Stream.Ev.publish 0 payload :: .send 0 :: flood payload n)
        = (((t.step crc (.publish 0 payload)).1.step crc (.send 0)).1).run crc (flood payload n) := rfl
    rw [e]
    have hs : (((t.step crc (.publish 0 payload)).1.step crc (.send 0)).1).sends = [] ∧
        (((t.step crc (.publish 0 payload)).1.step crc (.send 0)).1).log.msgs.length = t.log.msgs.length + 1 ∧
        (((t.step crc (.publish 0 payload)).1.step crc (.send 0)).1).persisted = t.persisted := by
      simp [Stream.Topic.step, ht, Stream.Log.append]
    obtain ⟨h1, h2, h3⟩ := hs
    obtain ⟨a, b⟩ := ih _ h1
    rw [a, b, h2, h3]
    exact ⟨by omega, rfl⟩

/-- **C115** is violated: however `STREAM_RAM_HARD_LIMIT` is set (`C113_hard_limit_violated`), as long as the storage task does not keep up a
topic holds any number of messages of any size in memory, also after a round of the eviction task. -/
theorem C115_violated {v : Vars} {c : All} (_ : start v = some c) (supply : Nat → Queue.Id) (env : Rpc.Env) (hub : Rpc.HubEnv) (o : Wire.StreamOpts)
    (payload : Bytes) (n : Nat) :
    ((Stream.Topic.fresh env.crc (Rpc.topicCfg (c.conf supply env hub).stream.sys o)).run env.crc
      (flood payload n ++ [.evictLoad, .evictRun])).log.msgs.length = n := by
  generalize Rpc.topicCfg (c.conf supply env hub).stream.sys o = cfg
  obtain ⟨h1, h2⟩ := flood_run (crc := env.crc) payload n (Stream.Topic.fresh env.crc cfg) rfl
  have hi : Stream.TInv (Stream.Topic.fresh env.crc cfg) :=
    Stream.build_inv ⟨by intro i m m0 h; simp [Stream.recover] at h, by intro m h; simp [Stream.recover] at h, by intro s h; cases h⟩
  have hr := hi.run env.crc (flood payload n)
  rw [Stream.run_append]
  generalize ht : (Stream.Topic.fresh env.crc cfg).run env.crc (flood payload n) = t at h1 h2 hr
  have h0 : t.persisted = 0 := h2
  show (t.log.evict t.persisted).msgs.length = n
  have key : ∀ ms rs, (∀ m ∈ ms, 0 < m.seq) → (Stream.Log.evictLoop t.log.softLimit 0 t.log.head ms rs).1 = ms := by
    intro ms rs hms
    cases ms with
    | nil => rfl
    | cons m u =>
      have := hms m List.mem_cons_self
      unfold Stream.Log.evictLoop
      rw [if_neg (show ¬ m.seq ≤ 0 by omega)]
      split <;> rfl
  simp only [Stream.Log.evict, h0]
  rw [key _ _ (fun m hm => Nat.lt_of_lt_of_le hr.log.head1 (hr.log.low m hm)), h1]
  exact Nat.zero_add n

/-! ### The hypotheses are met -/

/-- An environment with some settings. -/
def exVars : Vars := fun k =>
  if k = ascii "MAX_PAYLOAD_SIZE" then some (ascii "+052428800")
  else if k = ascii "QUEUE_MAX_RETRIES" then some (ascii "3x")
  else if k = ascii "QUEUE_DEFAULT_FLUSH_MS" then some (ascii "0")
  else if k = ascii "STREAM_RAM_SOFT_LIMIT" then some (ascii "2")
  else if k = ascii "NEXO_ENV" then some (ascii "prod")
  else none

/-- Decides whether a text is a number. -/
theorem written_of {s : Str} {n : Nat} (h : parseUint 64 s = some n) : Written s n := ((parseUint_some _ _ _).1 h).1

/-- The server starts with them: `C113_set_partial`, `C113_default`, `C113_dashboard`, `C113_ignored_violated` (three retries are asked for with
a typing mistake: it stays at five), `C114_zero_violated`. -/
example : ∃ c, start exVars = some c ∧ c.server.maxPayloadSize = 52428800 ∧ c.server.port = 7654 ∧ c.server.dashboardEnabled = false
    ∧ c.queue.maxRetries = 5 ∧ c.stream.ramSoftLimit = 2 ∧ c.runs .queueWriter = false ∧ c.runs .streamStorage = true ∧ c.serves = true := by
  cases h : start exVars with
  | none => exact absurd h (by decide +kernel)
  | some c =>
    refine ⟨c, rfl, ?_⟩
    have h1 : (start exVars).map (fun c => [c.server.maxPayloadSize, c.server.port, c.queue.maxRetries, c.stream.ramSoftLimit])
        = some [52428800, 7654, 5, 2] := by decide +kernel
    have h2 : (start exVars).map (fun c => [c.server.dashboardEnabled, c.runs .queueWriter, c.runs .streamStorage, c.serves])
        = some [false, false, true, true] := by decide +kernel
    rw [h] at h1 h2
    simp only [Option.map_some, Option.some.injEq, List.cons.injEq, and_true] at h1 h2
    simp [h1, h2]

example : Written (ascii "+052428800") 52428800 := written_of (by decide +kernel)
example : ¬ ∃ n, Written (ascii "3x") n ∧ n < 2 ^ 32 := (parseUint_none _ _).1 (by decide +kernel)

/-- `C113_refused`: a port that is too large is refused, as are no open files. -/
example : start (exVars.set "SERVER_SOCKET_TCP_PORT" (ascii "70000")) = none ∧ start (exVars.set "STREAM_MAX_OPEN_FILES" (ascii "0")) = none := by
  decide +kernel

/-- `C114_runs_partial`: nothing set. -/
example : ∃ c, start (fun _ => none) = some c ∧ ∀ t, c.runs t = true := by
  cases h : start (fun _ => none) with
  | none => exact absurd h (by decide +kernel)
  | some c => exact ⟨c, rfl, C114_runs_partial h (by simp) (by simp)⟩

/-- `C114_queue_violated`: a push is answered and kept in memory; after the restart it is gone. -/
example (c : All) : Permits c [.op (.push 1 [7] 0 5)] := by
  intro n h; simp at h

/-- `C115_soft_partial`: three messages are published and written; a round of eviction keeps two. -/
example : ((Stream.Topic.fresh (fun _ => 0) ⟨2, 100, ⟨none, none⟩, 10, 10, 1⟩).run (fun _ => 0)
    [.publish 1 [1], .send 0, .publish 1 [2], .send 0, .publish 1 [3], .send 0, .storage 1, .storage 1, .storage 1, .flush 2, .evictLoad, .evictRun]).log.msgs.map (·.seq)
      = [2, 3] := by decide +kernel

end Verif.Config
