import Verif.Proofs.QueueFifo
import Verif.Proofs.QueueEra

/-!
# Order of arrival across restarts

A message that waits keeps its place before a message pushed after it, in memory and in the table, whatever crashes.
-/

namespace Verif.Spec.Queue

/-- Nobody was handed the waiting message `b`. -/
def Untried (b : Nat) (q : Q) : Prop := ∀ y ∈ q.ready, y.id = b → y.attempts = 0

theorem mem_lineUps {xs : List Item} : ∀ {r : List Item} {y : Item}, y ∈ xs.foldl (fun l x => lineUp x l) r → y ∈ xs ∨ y ∈ r := by
  induction xs with
  | nil => intro r y h; exact .inr h
  | cons x xs ih =>
    intro r y h
    rcases ih h with h | h
    · exact .inl (List.mem_cons_of_mem _ h)
    · rcases mem_lineUp.1 h with rfl | h
      · exact .inl (List.mem_cons_self ..)
      · exact .inr h

theorem Untried.step {vt mr : Nat} {tr : Str} {q : Q} {b : Nat} (h : Untried b q) (hf : ∀ e ∈ q.flight, e.2.id ≠ b) (op : Req) :
    Untried b (Queue.step vt mr tr q op).1 := by
  have hsub : ∀ n due, Untried b (Queue.serveN due n q).2 := by
    intro n due y hy
    rw [(serveN_eq due n q).2.1] at hy
    exact h y (List.mem_of_mem_drop hy)
  cases op with
  | push id pl pr t =>
    intro y hy he
    rcases mem_lineUp.1 hy with rfl | hy
    · rfl
    · exact h y hy he
  | pop now =>
    intro y hy he
    simp only [Queue.step, serve] at hy
    split at hy
    · exact h y hy he
    · rename_i x rest hr
      exact h y (by rw [hr]; exact List.mem_cons_of_mem _ hy) he
  | consume max now => exact hsub _ _
  | ack id => intro y hy; exact h y (List.mem_filter.1 hy).1
  | nack id reason now =>
    simp only [Queue.step, fail]
    cases hl : lookupFlight id q with
    | some x =>
      obtain ⟨e, he, hex⟩ := Option.map_eq_some_iff.1 hl
      have hxb : x.id ≠ b := by rw [← hex]; exact hf e (List.mem_of_find?_eq_some he)
      dsimp only
      split
      · intro y hy; exact h y (List.mem_filter.1 hy).1
      · intro y hy hyb
        rcases mem_lineUp.1 hy with rfl | hy
        · exact absurd hyb hxb
        · exact h y hy hyb
    | none =>
      dsimp only
      cases hr : lookupReady id q with
      | none => exact h
      | some x =>
        dsimp only
        split
        · intro y hy; exact h y (List.mem_filter.1 hy).1
        · exact h
  | tick now now' =>
    simp only [Queue.step]
    split
    · intro y hy hyb
      rcases mem_lineUps hy with hy | hy
      · obtain ⟨e, he, rfl⟩ := List.mem_map.1 (List.mem_filter.1 hy).1
        exact absurd hyb (hf e (List.mem_filter.1 he).1)
      · exact h y hy hyb
    · exact h
  | peekDlq limit offset => exact h
  | moveToQueue id =>
    simp only [Queue.step, replay]
    cases hl : lookupDead id q with
    | none => exact h
    | some d =>
      intro y hy hyb
      rcases mem_lineUp.1 hy with rfl | hy
      · rfl
      · exact h y hy hyb
  | deleteDlq id =>
    simp only [Queue.step, discard]
    cases hl : lookupDead id q with
    | none => exact h
    | some d => exact h
  | purgeDlq => exact h
  | counters => exact h

end Verif.Spec.Queue

namespace Verif.Queue

open Spec.Queue (Item Dead Q lineUp Ahead Untried)

/-! ## The table -/

/-- The rows of two messages, in the order of the table. -/
def pairOf (A b : Id) (main : List (Id × Row)) : List Id := (mkeys main).filter (fun i => i = A || i = b)

/-- The row of `b` does not come before the row of `A`. -/
def Behind (A b : Id) (main : List (Id × Row)) : Prop := pairOf A b main = [] ∨ pairOf A b main = [A] ∨ pairOf A b main = [A, b]

theorem Behind.insert {A b : Id} {main : List (Id × Row)} (h : Behind A b main) (hA : A ∈ mkeys main) (hne : A ≠ b) {id : Id} {r : Row}
    (hn : id ∉ mkeys main) : Behind A b (insertRow main id r) := by
  have hk : mkeys (insertRow main id r) = mkeys main ++ [id] := by rw [mkeys_insertRow hn]; simp [mkeys]
  have hm : A ∈ pairOf A b main := List.mem_filter.2 ⟨hA, by simp⟩
  have hidA : id ≠ A := fun e => hn (e ▸ hA)
  unfold Behind pairOf at *
  rw [hk, List.filter_append]
  by_cases hib : id = b
  · subst hib
    have h1 : (List.filter (fun i => decide (i = A) || decide (i = id)) [id]) = [id] := by simp
    rw [h1]
    rcases h with h | h | h
    · rw [h] at hm; cases hm
    · rw [h]; exact .inr (.inr rfl)
    · exfalso
      apply hn
      have : id ∈ (mkeys main).filter (fun i => decide (i = A) || decide (i = id)) := by rw [h]; simp
      exact (List.mem_filter.1 this).1
  · have h1 : (List.filter (fun i => decide (i = A) || decide (i = b)) [id]) = [] := by simp [hib, hidA]
    rw [h1, List.append_nil]; exact h

theorem Behind.del {A b : Id} {main : List (Id × Row)} (h : Behind A b main) {id : Id} (hid : id ≠ A) : Behind A b (mdel main id) := by
  unfold Behind pairOf at *
  rw [mkeys_mdel, List.filter_filter]
  have e : ∀ l : List Id, l.filter (fun a => (decide (a = A) || decide (a = b)) && decide (a ≠ id)) =
      (l.filter (fun a => decide (a = A) || decide (a = b))).filter (fun a => decide (a ≠ id)) := by
    intro l; rw [List.filter_filter]; congr 1; funext a; rw [Bool.and_comm]
  have hA : ¬ A = id := fun e => hid e.symm
  rw [e]
  rcases h with h | h | h
  · rw [h]; exact .inl rfl
  · rw [h]; right; left; simp [hA]
  · rw [h]; right
    by_cases hb : b = id
    · left; simp [hA, hb]
    · right; simp [hA, hb]

/-- An operation before and after which `A` is in the table does not change the order of the rows. -/
theorem Behind.exec {A b : Id} {db : DB} (h : Behind A b db.main) (hne : A ≠ b) {op : StorageOp} (hp : Pre db op) (h1 : A ∈ mkeys db.main)
    (h2 : A ∈ mkeys (execOp db op).main) : Behind A b (execOp db op).main := by
  cases op with
  | insert m => exact h.insert h1 hne hp.1
  | delete id => exact h.del (fun e => (mem_mkeys_mdel.1 h2).1 e.symm)
  | updateState id v a =>
    simp only [execOp]
    unfold Behind pairOf at *
    rw [mkeys_mupd]; exact h
  | insertDlq m => exact h
  | deleteDlq id => exact h
  | moveToDlq id m => exact h.del (fun e => (mem_mkeys_mdel.1 h2).1 e.symm)
  | moveToMain id m => exact h.insert h1 hne (by rw [hp.1]; exact hp.2.2)
  | purgeDlq => exact h

theorem Behind.execAll {A b : Id} (hne : A ≠ b) {used : Id → Prop} : ∀ (L : List StorageOp) {db : DB}, Behind A b db.main → Safe used db L →
    (∀ k, A ∈ mkeys (execAll db (L.take k)).main) → ∀ k, Behind A b (execAll db (L.take k)).main := by
  intro L
  induction L with
  | nil => intro db h _ _ k; simpa [Queue.execAll] using h
  | cons op t ih =>
    intro db h hs hA k
    cases k with
    | zero => simpa [Queue.execAll] using h
    | succ k =>
      have h1 : A ∈ mkeys db.main := by simpa [Queue.execAll] using hA 0
      have h2 : A ∈ mkeys (execOp db op).main := by simpa [Queue.execAll] using hA 1
      exact ih (h.exec hne hs.1 h1 h2) hs.2.2 (fun j => by simpa [Queue.execAll] using hA (j + 1)) k

/-- The table, cut at the row of `A`. -/
theorem Behind.cut {A b : Id} {main : List (Id × Row)} (h : Behind A b main) (hne : A ≠ b) {row : Row} (hA : mget main A = some row) :
    ∃ l r, main = l ++ (A, row) :: r ∧ ∀ e ∈ l, e.1 ≠ b := by
  obtain ⟨l, r, hm⟩ := List.append_of_mem (mget_some_mem hA)
  refine ⟨l, r, hm, ?_⟩
  intro e he hb
  have hp : pairOf A b main = pairOf A b l ++ A :: pairOf A b r := by
    unfold pairOf mkeys
    rw [hm, List.map_append, List.filter_append, List.map_cons, List.filter_cons_of_pos (by simp)]
  have hbl : b ∈ pairOf A b l := List.mem_filter.2 ⟨List.mem_map.2 ⟨e, he, hb⟩, by simp⟩
  unfold Behind at h
  rw [hp] at h
  cases hl : pairOf A b l with
  | nil => rw [hl] at hbl; cases hbl
  | cons x t =>
    rw [hl] at h hbl
    rcases h with h | h | h
    · cases h
    · simp at h
    · simp only [List.cons_append, List.cons.injEq] at h
      obtain ⟨rfl, h⟩ := h
      cases t with
      | nil => simp only [List.nil_append, List.cons.injEq] at h; exact hne h.1
      | cons y t => simp at h

/-! ## Memory and table -/

/-- What the tables say about a message of priority at most `p` that nobody was handed. -/
def Young (p : Nat) (e : Option Row × Option DlqMsg) : Prop :=
  (∀ r, e.1 = some r → r.attempts = 0 ∧ r.priority ≤ p) ∧ ∀ d, e.2 = some d → d.priority ≤ p

/-- What the tables say about a message of priority `p`. -/
def Ranked (p : Nat) (e : Option Row × Option DlqMsg) : Prop := ∀ r, e.1 = some r → r.priority = p

/-- `A` waits, `b` is behind it, and it would be behind it after a crash at any point. -/
structure Trails (s : Sys) (used : List Id) (A b : Id) (p : Nat) : Prop where
  now : ∃ a, RQ s.q a (· ∈ used) ∧ Ahead (· = b) A p a ∧ Untried b a
  rows : ∀ k, Behind A b (execAll s.db (s.pending.take k)).main
  young : ∀ k, Young p (entry (execAll s.db (s.pending.take k)) b)
  ranked : ∀ k, Ranked p (entry (execAll s.db (s.pending.take k)) A)

variable {A b : Id} {p : Nat}

theorem young_of {q : QInner} {a : Q} {used : Id → Prop} (h : RQ q a used) (ha : Ahead (· = b) A p a) (hu : Untried b a) {db : DB} (hr : DBR q db) :
    Young p (entry db b) := by
  constructor
  · intro r he
    have he' : (mget q.state.registry b).map Msg.row = some r := by rw [← hr.main.eq]; exact he
    obtain ⟨m, hm, rfl⟩ := Option.map_eq_some_iff.1 he'
    obtain ⟨hid, hc⟩ := RS.comp h.st b m hm
    rcases hc with ⟨_, hc⟩ | ⟨ts, _, hc⟩
    · exact ⟨hu m.item hc hid, ha.low m.item hc hid⟩
    · exact absurd hid (ha.flight _ hc)
  · intro d he
    have he' : mget q.dlq b = some d := by rw [← hr.dlq]; exact he
    have hmem := mget_some_mem he'
    have hd : d.dead ∈ a.dead := by rw [← h.dead]; exact List.mem_map.2 ⟨_, hmem, rfl⟩
    exact ha.dead _ hd (h.dkey _ hmem).symm

theorem ranked_of {q : QInner} {a : Q} {used : Id → Prop} (h : RQ q a used) (ha : Ahead (· = b) A p a) {db : DB} (hr : DBR q db) :
    Ranked p (entry db A) ∧ A ∈ mkeys db.main := by
  obtain ⟨l, x, t, hl, hx, hp, _⟩ := ha.line
  obtain ⟨m, h1, h2, _⟩ := RS.cr h.st x (by rw [hl]; simp)
  rw [hx] at h1
  have h3 : mget db.main A = some m.row := by rw [hr.main.eq, h1]; rfl
  refine ⟨?_, ?_⟩
  · intro r he
    rw [show (entry db A).1 = mget db.main A from rfl, h3] at he
    injection he with he
    rw [← he, ← hp, ← h2]; rfl
  · rw [← mget_isSome, h3]; rfl

/-- The message is not known yet. -/
theorem entry_unknown {db : DB} {used : Id → Prop} (h : DBI db used) {id : Id} (hu : ¬ used id) : entry db id = (none, none) := by
  unfold entry
  rw [mget_eq_none.2 (fun hm => hu (h.um id hm)), mget_eq_none.2 (fun hm => hu (h.ud id hm))]

theorem SysInv.prefix {s : Sys} {used : Id → Prop} (h : SysInv s used) (k : Nat) : DBI (execAll s.db (s.pending.take k)) used := by
  have := h.safe
  rw [← List.take_append_drop k s.pending] at this
  exact DBI.execAll _ h.db ((Safe.append _ _).1 this).1

/-- A prefix of the operations after a request. -/
theorem take_cases (db : DB) (l l' : List StorageOp) (n : Nat) :
    (∃ k, execAll db ((l ++ l').take n) = execAll db (l.take k)) ∨ ∃ j, execAll db ((l ++ l').take n) = execAll (execAll db l) (l'.take j) := by
  rw [List.take_append, execAll_append]
  by_cases hn : n ≤ l.length
  · left
    refine ⟨n, ?_⟩
    have : n - l.length = 0 := by omega
    rw [this, List.take_zero]; rfl
  · right
    exact ⟨n - l.length, by rw [List.take_of_length_le (by omega)]⟩

theorem Trails.push {s : Sys} {used : List Id} (hi : SysInv s (· ∈ used)) (hne : A ≠ b) (hA : A ∉ used) (hb : b ∉ used) (pl : Bytes) (t : Nat) :
    Trails (s.step (.op (.push A pl p t))).1 (used ++ [A]) A b p := by
  obtain ⟨a, ha⟩ := hi.q
  obtain ⟨s1, _, _⟩ := ha.stepU (op := .push A pl p t) trivial (by simpa [Op.pushId] using hA)
  have hids : ∀ i ∈ a.ids, i ≠ b := by
    intro i hm he
    subst he
    exact hb (ha.ids_used hm)
  have h1 : Ahead (· = b) A p (sstep s.q.cfg a (.push A pl p t)).1 := Ahead.push hids hne pl t
  have h2 : Untried b (sstep s.q.cfg a (.push A pl p t)).1 := by
    intro y hy he
    rcases Spec.Queue.mem_lineUp.1 hy with rfl | hy
    · rfl
    · exact absurd he (hids _ (by rw [Spec.Queue.ids_eq]; exact List.mem_append_left _ (List.mem_map.2 ⟨y, hy, rfl⟩)))
  have hi' := hi.op (.push A pl p t) trivial (by simpa [Op.pushId] using hA)
  have hA' : ∀ k, A ∉ mkeys (execAll s.db (s.pending.take k)).main := fun k hm => hA ((hi.prefix k).um A hm)
  have hb' : ∀ k, b ∉ mkeys (execAll s.db (s.pending.take k)).main := fun k hm => hb ((hi.prefix k).um b hm)
  have hp0 : ∀ k, pairOf A b (execAll s.db (s.pending.take k)).main = [] := by
    intro k
    unfold pairOf
    rw [List.filter_eq_nil_iff]
    intro i hm
    simp only [Bool.or_eq_true, decide_eq_true_eq, not_or]
    exact ⟨fun e => hA' k (e ▸ hm), fun e => hb' k (e ▸ hm)⟩
  have hfull : DBR (s.step (.op (.push A pl p t))).1.q (execAll (execAll s.db s.pending) [.insert ⟨A, pl, p, 0, t, 0, none, .ready⟩]) := by
    have := hi'.agree
    rw [← execAll_append]; exact this
  have hpend : execAll s.db s.pending = execAll s.db (s.pending.take s.pending.length) := by rw [List.take_length]
  have hcase : ∀ k, (∃ j, execAll s.db ((s.pending ++ [StorageOp.insert ⟨A, pl, p, 0, t, 0, none, .ready⟩]).take k) = execAll s.db (s.pending.take j)) ∨
      execAll s.db ((s.pending ++ [StorageOp.insert ⟨A, pl, p, 0, t, 0, none, .ready⟩]).take k) =
        execAll (execAll s.db s.pending) [.insert ⟨A, pl, p, 0, t, 0, none, .ready⟩] := by
    intro k
    rcases take_cases s.db s.pending [.insert ⟨A, pl, p, 0, t, 0, none, .ready⟩] k with h | ⟨j, h⟩
    · exact .inl h
    · cases j with
      | zero => exact .inl ⟨_, h.trans hpend⟩
      | succ j => rw [List.take_succ_cons, List.take_nil] at h; exact .inr h
  refine ⟨⟨_, s1, h1, h2⟩, ?_, ?_, ?_⟩
  · intro k
    show Behind A b (execAll s.db ((s.pending ++ [StorageOp.insert ⟨A, pl, p, 0, t, 0, none, .ready⟩]).take k)).main
    rcases hcase k with ⟨j, h⟩ | h
    · rw [h]; exact .inl (hp0 j)
    · rw [h]
      right; left
      show pairOf A b (insertRow (execAll s.db s.pending).main A _) = [A]
      have hn := hA' s.pending.length
      have h0 := hp0 s.pending.length
      rw [← hpend] at hn h0
      unfold pairOf at h0 ⊢
      rw [mkeys_insertRow hn]
      simp only [mkeys, List.map_append, List.filter_append] at h0 ⊢
      rw [h0]; simp
  · intro k
    show Young p (entry (execAll s.db ((s.pending ++ [StorageOp.insert ⟨A, pl, p, 0, t, 0, none, .ready⟩]).take k)) b)
    rcases hcase k with ⟨j, h⟩ | h
    · rw [h, entry_unknown (hi.prefix j) hb]; exact ⟨fun _ h => (by cases h), fun _ h => (by cases h)⟩
    · rw [h]; exact young_of s1 h1 h2 hfull
  · intro k
    show Ranked p (entry (execAll s.db ((s.pending ++ [StorageOp.insert ⟨A, pl, p, 0, t, 0, none, .ready⟩]).take k)) A)
    rcases hcase k with ⟨j, h⟩ | h
    · rw [h, entry_unknown (hi.prefix j) hA]; exact fun _ h => (by cases h)
    · rw [h]; exact (ranked_of s1 h1 hfull).1

theorem Trails.op {s : Sys} {used : List Id} (hi : SysInv s (· ∈ used)) (hne : A ≠ b) (h : Trails s used A b p) {o : Op} (hok : o.ok)
    (hf : ∀ i ∈ o.pushId, i ∉ used) (h1 : o ≠ .ack A) (h2 : ∀ rs t, o ≠ .nack A rs t) (h3 : A ∉ (Queue.step s.q o).2.1.delivered)
    (hp : ∀ pl pr t, o = .push b pl pr t → pr ≤ p) : Trails (s.step (.op o)).1 (used ++ o.pushId) A b p := by
  obtain ⟨a, ha, hah, hun⟩ := h.now
  obtain ⟨s1, _, s3⟩ := ha.stepU hok hf
  have hk := hah.step (vt := s.q.cfg.visibilityTimeout) (mr := s.q.cfg.maxRetries) (tr := timeoutReason) (op := o.req)
    (by intro he; cases o <;> simp only [Op.req, reduceCtorEq, Spec.Queue.Req.ack.injEq] at he; subst he; exact h1 rfl)
    (by intro rs tm he; cases o <;> simp only [Op.req, reduceCtorEq, Spec.Queue.Req.nack.injEq] at he
        obtain ⟨rfl, rfl, rfl⟩ := he; exact h2 _ _ rfl)
    (by intro id pl pr tm he hb; cases o <;> simp only [Op.req, reduceCtorEq, Spec.Queue.Req.push.injEq] at he
        obtain ⟨rfl, rfl, rfl, rfl⟩ := he; subst hb; exact hp _ _ _ rfl)
  have hah' : Ahead (· = b) A p (sstep s.q.cfg a o).1 := by
    rcases hk with ⟨k1, _⟩ | ⟨l, r, k, _⟩
    · exact k1
    · exfalso
      apply h3
      rw [s3]
      show A ∈ (Spec.Queue.step _ _ _ a o.req).2.delivered
      rw [k]; simp
  have hun' : Untried b (sstep s.q.cfg a o).1 := hun.step hah.flight o.req
  have hi' := hi.op o hok hf
  have hfull : DBR (s.step (.op o)).1.q (execAll (execAll s.db s.pending) (Queue.step s.q o).2.2) := by
    have := hi'.agree
    rw [← execAll_append]; exact this
  have hsafe : Safe (fun i => i ∈ used ∨ i ∈ o.pushId) (execAll s.db s.pending) (Queue.step s.q o).2.2 := ((Safe.append _ _).1 hi'.safe).2
  have hpend : execAll s.db s.pending = execAll s.db (s.pending.take s.pending.length) := by rw [List.take_length]
  have hA1 := (ranked_of ha hah hi.agree).2
  have hA2 := (ranked_of s1 hah' hfull).2
  have hAk : ∀ k, A ∈ mkeys (execAll (execAll s.db s.pending) ((Queue.step s.q o).2.2.take k)).main := by
    intro k
    rw [← mget_isSome] at hA1 hA2 ⊢
    rcases entry_prefix (step_touch ha o hok A) (execAll s.db s.pending) k with h4 | h4
    · rw [(Prod.mk.inj h4).1]; exact hA1
    · rw [(Prod.mk.inj h4).1]; exact hA2
  refine ⟨⟨_, s1, hah', hun'⟩, ?_, ?_, ?_⟩
  · intro k
    show Behind A b (execAll s.db ((s.pending ++ (Queue.step s.q o).2.2).take k)).main
    rcases take_cases s.db s.pending (Queue.step s.q o).2.2 k with ⟨j, e⟩ | ⟨j, e⟩
    · rw [e]; exact h.rows j
    · rw [e]
      exact Behind.execAll hne _ (by rw [hpend]; exact h.rows _) hsafe hAk j
  · intro k
    show Young p (entry (execAll s.db ((s.pending ++ (Queue.step s.q o).2.2).take k)) b)
    rcases take_cases s.db s.pending (Queue.step s.q o).2.2 k with ⟨j, e⟩ | ⟨j, e⟩
    · rw [e]; exact h.young j
    · rw [e]
      rcases entry_prefix (step_touch ha o hok b) (execAll s.db s.pending) j with h4 | h4
      · rw [h4, hpend]; exact h.young _
      · rw [h4]; exact young_of s1 hah' hun' hfull
  · intro k
    show Ranked p (entry (execAll s.db ((s.pending ++ (Queue.step s.q o).2.2).take k)) A)
    rcases take_cases s.db s.pending (Queue.step s.q o).2.2 k with ⟨j, e⟩ | ⟨j, e⟩
    · rw [e]; exact h.ranked j
    · rw [e]
      rcases entry_prefix (step_touch ha o hok A) (execAll s.db s.pending) j with h4 | h4
      · rw [h4, hpend]; exact h.ranked _
      · rw [h4]; exact (ranked_of s1 hah' hfull).1

theorem Trails.commit {s : Sys} {used : List Id} (h : Trails s used A b p) (n : Nat) : Trails (s.step (.commit n)).1 used A b p := by
  have e : ∀ k, execAll (s.step (.commit n)).1.db ((s.step (.commit n)).1.pending.take k) = execAll s.db (s.pending.take (n + k)) := by
    intro k
    show execAll (execAll s.db (s.pending.take n)) ((s.pending.drop n).take k) = _
    rw [← execAll_append, ← List.take_add]
  exact ⟨h.now, fun k => by rw [e]; exact h.rows _, fun k => by rw [e]; exact h.young _, fun k => by rw [e]; exact h.ranked _⟩

theorem recoveredR_append (now : Nat) (l l' : List (Id × Row)) (r : List Item) :
    recoveredR now (l ++ l') r = recoveredR now l' (recoveredR now l r) := by simp [recoveredR]

theorem mem_recoveredR (now : Nat) : ∀ (rows : List (Id × Row)) {r : List Item} {y : Item}, y ∈ recoveredR now rows r →
    y ∈ r ∨ ∃ e ∈ rows, y = (loadRow now e.1 e.2).item := by
  intro rows
  induction rows with
  | nil => intro r y h; exact .inl h
  | cons e t ih =>
    intro r y h
    rw [show e :: t = [e] ++ t from rfl, recoveredR_append] at h
    rcases ih h with h | ⟨e', he', h⟩
    · simp only [recoveredR, List.foldl_cons, List.foldl_nil] at h
      split at h
      · rcases Spec.Queue.mem_lineUp.1 h with rfl | h
        · exact .inr ⟨e, List.mem_cons_self .., rfl⟩
        · exact .inl h
      · exact .inl h
    · exact .inr ⟨e', List.mem_cons_of_mem _ he', h⟩

theorem mem_recoveredF (now : Nat) : ∀ (rows : List (Id × Row)) {r : List (Nat × Item)} {y : Nat × Item}, y ∈ recoveredF now rows r →
    y ∈ r ∨ ∃ e ∈ rows, (loadRow now e.1 e.2).state ≠ .ready ∧ y.2 = (loadRow now e.1 e.2).item := by
  intro rows
  induction rows with
  | nil => intro r y h; exact .inl h
  | cons e t ih =>
    intro r y h
    have e0 : recoveredF now (e :: t) r = recoveredF now t (recoveredF now [e] r) := rfl
    rw [e0] at h
    rcases ih h with h | ⟨e', he', h⟩
    · simp only [recoveredF, List.foldl_cons, List.foldl_nil] at h
      split at h
      · exact .inl h
      · rename_i hs
        rcases Spec.Queue.mem_file.1 h with rfl | h
        · exact .inr ⟨e, List.mem_cons_self .., hs, rfl⟩
        · exact .inl h
    · exact .inr ⟨e', List.mem_cons_of_mem _ he', h⟩

/-- Rows loaded behind the row of `A`. -/
theorem line_recovered (now : Nat) {B : Id → Prop} : ∀ (rows : List (Id × Row)) {r : List Item},
    (∃ l x t, r = l ++ x :: t ∧ x.id = A ∧ x.priority = p ∧ ∀ y ∈ l, ¬ B y.id) → (∀ y ∈ r, B y.id → y.priority ≤ p) →
    (∀ e ∈ rows, B e.1 → e.2.priority ≤ p) →
    (∃ l x t, recoveredR now rows r = l ++ x :: t ∧ x.id = A ∧ x.priority = p ∧ ∀ y ∈ l, ¬ B y.id) ∧
    ∀ y ∈ recoveredR now rows r, B y.id → y.priority ≤ p := by
  intro rows
  induction rows with
  | nil => intro r h1 h2 _; exact ⟨h1, h2⟩
  | cons e t ih =>
    intro r h1 h2 h3
    rw [show e :: t = [e] ++ t from rfl, recoveredR_append]
    have h4 : (∃ l x t, recoveredR now [e] r = l ++ x :: t ∧ x.id = A ∧ x.priority = p ∧ ∀ y ∈ l, ¬ B y.id) ∧
        ∀ y ∈ recoveredR now [e] r, B y.id → y.priority ≤ p := by
      simp only [recoveredR, List.foldl_cons, List.foldl_nil]
      split
      · exact Spec.Queue.line_lineUp h1 h2 (z := (loadRow now e.1 e.2).item) (h3 e (List.mem_cons_self ..))
      · exact ⟨h1, h2⟩
    exact ih h4.1 h4.2 (fun e he => h3 e (List.mem_cons_of_mem _ he))

theorem Trails.restart {s : Sys} {used : List Id} (hi : SysInv s (· ∈ used)) (hne : A ≠ b) (h : Trails s used A b p) (hr : Rests s A) (now : Nat) :
    Trails (s.step (.restart now)).1 used A b p := by
  have e0 : ∀ k, execAll (s.step (.restart now)).1.db ((s.step (.restart now)).1.pending.take k) = execAll s.db (s.pending.take 0) := by
    intro k; simp [Sys.step, execAll]
  have e1 : execAll s.db (s.pending.take 0) = s.db := by simp [execAll]
  obtain ⟨row, hrow, hatt⟩ := hr.kept 0
  have hrk := h.ranked 0
  have hyg := h.young 0
  have hbh := h.rows 0
  rw [e1] at hrow hrk hyg hbh
  have hA : mget s.db.main A = some row := (Prod.mk.inj hrow).1
  have hprio : row.priority = p := hrk row hA
  obtain ⟨l, r, hm, hl⟩ := hbh.cut hne hA
  have hyb : ∀ e ∈ s.db.main, e.1 = b → e.2.attempts = 0 ∧ e.2.priority ≤ p := by
    intro e he hb
    have hg : mget s.db.main b = some e.2 := by
      rw [← hb]; exact (MWF.mem_iff hi.db.wm).1 he
    exact hyg.1 e.2 hg
  have hready : (loadRow now A row).state = .ready := by simp [loadRow, hatt]
  have hall : recoveredR now s.db.main [] = recoveredR now r (lineUp (loadRow now A row).item (recoveredR now l [])) := by
    rw [hm, recoveredR_append]
    show recoveredR now ([(A, row)] ++ r) _ = _
    rw [recoveredR_append]
    congr 1
    simp only [recoveredR, List.foldl_cons, List.foldl_nil, hready, if_true]
  have hnb : ∀ y ∈ recoveredR now l [], y.id ≠ b := by
    intro y hy
    rcases mem_recoveredR now l hy with hy | ⟨e, he, rfl⟩
    · cases hy
    · exact hl e he
  obtain ⟨k1, k2⟩ := line_recovered (A := A) (p := p) (B := (· = b)) now r (r := lineUp (loadRow now A row).item (recoveredR now l []))
    ⟨(recoveredR now l []).filter (fun y => (loadRow now A row).item.priority ≤ y.priority), (loadRow now A row).item, _, rfl, rfl, hprio,
      fun y hy => hnb y (List.mem_filter.1 hy).1⟩
    (by intro y hy hb
        rcases Spec.Queue.mem_lineUp.1 hy with rfl | hy
        · exact absurd hb hne
        · exact absurd hb (hnb y hy))
    (by intro e he hb; exact (hyb e (by rw [hm]; simp [he]) hb).2)
  refine ⟨⟨recovered now s.db, (RQ.recover hi.db s.q.cfg now).1, ⟨?_, ?_, ?_, ?_⟩, ?_⟩, fun k => by rw [e0]; exact h.rows 0,
    fun k => by rw [e0]; exact h.young 0, fun k => by rw [e0]; exact h.ranked 0⟩
  · show ∃ l x r, recoveredR now s.db.main [] = _ ∧ _
    rw [hall]; exact k1
  · show ∀ y ∈ recoveredR now s.db.main [], _
    rw [hall]; exact k2
  · intro e he hb
    rcases mem_recoveredF now s.db.main he with he | ⟨x, hx, hst, heq⟩
    · cases he
    · rw [heq] at hb
      have := (hyb x hx hb).1
      exact hst (by simp [loadRow, this])
  · intro d hd hb
    obtain ⟨x, hx, rfl⟩ := List.mem_map.1 hd
    have hxb : x.1 = b := by rw [hi.db.key x hx]; exact hb
    exact hyg.2 x.2 (by rw [← hxb]; exact (MWF.mem_iff hi.db.wd).1 hx)
  · intro y hy hb
    rcases mem_recoveredR now _ hy with hy | ⟨e, he, rfl⟩
    · cases hy
    · exact (hyb e he hb).1

/-! ## Histories -/

theorem trails_on {c : Config} {es : List Event} (hne : A ≠ b) (E : List Event) (hv : ValidHist (es ++ E)) (hu : Undisturbed A c es E)
    (hpr : ∀ pl' pr t', Event.op (.push b pl' pr t') ∈ E → pr ≤ p) (hR : ∀ F now G, E = F ++ .restart now :: G → Rests (eraSys (c, es ++ F)) A)
    (h : Trails (eraSys (c, es)) (eventIds es) A b p) : Trails (eraSys (c, es ++ E)) (eventIds (es ++ E)) A b p := by
  induction E using Sdk.snoc_ind with
  | h0 => simpa using h
  | h1 E e ih =>
    rw [← List.append_assoc] at hv ⊢
    have hw := ih hv.left hu.left (fun pl' pr t' hm => hpr pl' pr t' (List.mem_append_left _ hm))
      (fun F now G he => hR F now (G ++ [e]) (by rw [he]; simp))
    have hi : SysInv (eraSys (c, es ++ E)) _ := sysInv c hv.left
    rw [eraSys_snoc, eventIds_append]
    cases e with
    | op o =>
      obtain ⟨h1, h2, h3⟩ := hu E o [] rfl
      have := hw.op hi hne (hv.1 (.op o) (by simp)) (fun i hi => hv.right.2 i (by simpa [eventIds] using hi)) h1 h2 h3
        (fun pl' pr t' he => hpr pl' pr t' (by rw [he]; simp))
      simpa [eventIds] using this
    | commit k => simpa [eventIds] using hw.commit k
    | restart now => simpa [eventIds] using hw.restart hi hne (hR E now [] rfl) now

/-- A history with crashes: `A` was pushed, everything about it was written before the first crash, and nobody was handed it; a message pushed
afterwards, with the same or a lower priority, stays behind it. -/
theorem trails_run {c : Config} {es E₁ E₂ : List Event} {pl : Bytes} {t : Nat} (hne : A ≠ b)
    (hv : ValidHist (es ++ [.op (.push A pl p t)] ++ E₁ ++ E₂)) (hb : b ∉ eventIds es) (hr : ∀ now, .restart now ∉ E₁)
    (hu : Undisturbed A c (es ++ [.op (.push A pl p t)]) (E₁ ++ E₂)) (hpr : ∀ pl' pr t', Event.op (.push b pl' pr t') ∈ E₁ ++ E₂ → pr ≤ p)
    (hw : ∀ op ∈ (eraSys (c, es ++ [.op (.push A pl p t)] ++ E₁)).pending, touches A op = false) :
    Trails (eraSys (c, es ++ [.op (.push A pl p t)] ++ E₁ ++ E₂)) (eventIds (es ++ [.op (.push A pl p t)] ++ E₁ ++ E₂)) A b p := by
  have hA : A ∉ eventIds es := hv.left.left.right.2 A (by simp [eventIds, Op.pushId])
  have hi0 : SysInv (eraSys (c, es)) _ := sysInv c hv.left.left.left
  have h0 : Trails (eraSys (c, es ++ [.op (.push A pl p t)])) (eventIds (es ++ [.op (.push A pl p t)])) A b p := by
    rw [eraSys_snoc, eventIds_append]
    exact Trails.push hi0 hne hA hb pl t
  have h1 := trails_on hne E₁ hv.left hu.left (fun pl' pr t' hm => hpr pl' pr t' (List.mem_append_left _ hm))
    (fun F now G he => absurd (by rw [he]; simp) (hr now)) h0
  obtain ⟨a0, hR0⟩ := hi0.q
  have hun : Unserved (eraSys (c, es ++ [.op (.push A pl p t)])).q A := by
    rw [eraSys_snoc]
    exact Unserved.push hR0 pl p t hA
  have hrest := Rests.written (sysInv c hv.left) (unserved_run E₁ hv.left hr hu.left hun) hw
  refine trails_on hne E₂ hv hu.right (fun pl' pr t' hm => hpr pl' pr t' (List.mem_append_right _ hm)) ?_ h1
  intro F now G he
  rw [he] at hv hu
  refine rests_run F ?_ (Undisturbed.left (F := .restart now :: G) hu.right) hrest
  have e : es ++ [.op (.push A pl p t)] ++ E₁ ++ (F ++ .restart now :: G) = es ++ [.op (.push A pl p t)] ++ E₁ ++ F ++ .restart now :: G := by simp
  rw [e] at hv
  exact hv.left

end Verif.Queue
