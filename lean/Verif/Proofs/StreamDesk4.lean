import Verif.Proofs.StreamDesk3

/-!
# Lemmas about streams as one sequential object: the acts of the server
-/

namespace Verif.Rpc

open Verif Verif.Wire Verif.Sdk
open Verif.Stream (Topic GErr Query Msg FetchOp SCmd View Rel GRel Fate)

variable {E I : Type} {env : Env} {bg : I → Option (Str × Stream.Ev)}

/-! ### Topic by topic -/

/-- The library has the right books of topic `n` after the acts `w`. -/
def Fit (env : Env) (bg : I → Option (Str × Stream.Ev)) (w : List (Act I)) (D : Library) (n : Str) : Prop :=
  (D n = none ∧ mget (Streams.after env bg w).topics n = none) ∨
  ∃ L u o v, D n = some L ∧ Born env bg n w u o v ∧ Written env o (hist env bg n u o v) L

theorem Fit.absent {w : List (Act I)} {D : Library} {n : Str} (h : Fit env bg w D n) (hn : D n = none) :
    mget (Streams.after env bg w).topics n = none := by
  rcases h with h | ⟨L, _, _, _, h, _⟩
  · exact h.2
  · rw [hn] at h; cases h

theorem Fit.present {w : List (Act I)} {D : Library} {n : Str} {L : Ledger} (h : Fit env bg w D n) (hn : D n = some L) :
    ∃ u o v, Born env bg n w u o v ∧ Written env o (hist env bg n u o v) L := by
  rcases h with h | ⟨L', u, o, v, h1, h2, h3⟩
  · rw [hn] at h; cases h.1
  · rw [hn] at h1; injection h1 with h1; subst h1; exact ⟨u, o, v, h2, h3⟩

/-- The act does nothing to topic `m`. -/
theorem Fit.frame {w : List (Act I)} {D D' : Library} {m : Str} {a : Act I} (h : Fit env bg w D m) (hD : D' m = D m)
    (hs : ∀ t, mget (Streams.after env bg w).topics m = some t → actSteps env bg m (w.countP isStreamAct) t a = []) (hd : ¬ dropsTopic m a)
    (hc : D m = none → ∀ l o now r, a ≠ .did l (.sCreate m o) now r) : Fit env bg (w ++ [a]) D' m := by
  rcases h with ⟨h1, h2⟩ | ⟨L, u, o, v, h1, h2, h3⟩
  · left
    refine ⟨by rw [hD, h1], ?_⟩
    rw [after_snoc]
    rcases act_absent env bg h2 a with ⟨l, o, now, r, he, _⟩ | h
    · exact absurd he (hc h1 l o now r)
    · exact h
  · right
    refine ⟨L, u, o, v ++ [a], by rw [hD, h1], h2.extend (fun x hx => by rw [List.mem_singleton] at hx; subst hx; exact hd), ?_⟩
    rw [h2.next, hs _ h2.now, List.append_nil]
    exact h3

/-- The act does something to topic `n`. -/
theorem Fit.go {w u v : List (Act I)} {o : StreamOpts} {D' : Library} {n : Str} {a : Act I} {L' : Ledger} (hb : Born env bg n w u o v) (hD : D' n = some L')
    (hd : ¬ dropsTopic n a) (hw : Written env o (hist env bg n u o v ++
      actSteps env bg n (w.countP isStreamAct) ((newTopic env o).run env.crc (hist env bg n u o v)) a) L') : Fit env bg (w ++ [a]) D' n := by
  right
  refine ⟨L', u, o, v ++ [a], hD, hb.extend (fun x hx => by rw [List.mem_singleton] at hx; subst hx; exact hd), ?_⟩
  rw [hb.next]
  exact hw

theorem lib_same (D : Library) (n : Str) (L : Option Ledger) : (D.set n L) n = L := by simp [Library.set]

theorem lib_other (D : Library) {n m : Str} (L : Option Ledger) (h : m ≠ n) : (D.set n L) m = D m := by simp [Library.set, h]

theorem act_other {m : Str} {k l now : Nat} {t : Topic} {cmd : Cmd} {r : Option Response} (h : onTopic cmd ≠ some m) :
    actSteps env bg m k t (.did l cmd now r) = [] := by simp [actSteps, h]

/-! ### The state of a topic and its books -/

/-- What the books know about the topic's state. -/
theorem Streamed.rel {A w u v : List (Act I)} {n : Str} {o : StreamOpts} (ht : Streamed env bg A) (hw : w <+: A) (hb : Born env bg n w u o v) (g : Str) :
    ∃ J, Rel g ((newTopic env o).run env.crc (hist env bg n u o v)) (Stream.viewAfter env.crc (newTopic env o) g (hist env bg n u o v)) J ∧
      Stream.TInv ((newTopic env o).run env.crc (hist env bg n u o v)) ∧ ∀ c cn, (c, cn) ∈ J → c ∈ Stream.joinIds g (hist env bg n u o v) := by
  obtain ⟨J, h1, h2, _, _, h3⟩ := (new_started ht.ok.deliveries o).reach g (hist env bg n u o v) (ht.nodup hw hb g)
  exact ⟨J, h1, h2, h3⟩

theorem nodup_of_count {l : List Nat} (h : ∀ a ∈ l, l.count a = 1) : l.Nodup := by
  induction l with
  | nil => exact List.nodup_nil
  | cons x l ih =>
    have h1 : x ∉ l := by
      intro hx
      have := h x (List.mem_cons_self ..)
      rw [List.count_cons_self] at this
      have := List.count_pos_iff.2 hx
      omega
    refine List.nodup_cons.2 ⟨h1, ih (fun a ha => ?_)⟩
    have := h a (List.mem_cons_of_mem _ ha)
    rw [List.count_cons_of_ne (by rintro rfl; exact h1 ha)] at this
    exact this

/-- A fetch that is answered with messages, or none, is one of a group that is there. -/
theorem fetched_known {crc : Bytes → Nat} {t : Topic} (ha : Alive t) {x : Stream.Ev} {q : Query} {ms : List Msg}
    (ho : (t.step crc x).2 = .fetched q (.ok ms)) : mhas t.groups q.group = true := by
  cases x with
  | fetch g' c gen lim poll =>
    simp only [Topic.step] at ho
    split at ho
    · injection ho with _ h2; cases h2
    · cases ho
  | attempt id now =>
    simp only [Topic.step, Topic.attempt] at ho
    split at ho
    · cases ho
    · next op hop =>
      have := ha.group id op hop
      split at ho
      · cases ho
      · split at ho
        · simp only [Topic.endFetch] at ho
          injection ho with h1 _
          rw [← h1]; exact this
        · simp only [Topic.endFetch] at ho
          injection ho with h1 _
          rw [← h1]; exact this
        · cases ho
        · split at ho
          · cases ho
          · simp only [Topic.endFetch] at ho
            injection ho with h1 _
            rw [← h1]; exact this
  | finish id now =>
    simp only [Topic.step] at ho
    split at ho
    · cases ho
    · next op hop =>
      have := ha.group id op hop
      split at ho
      · simp only [Topic.endFetch] at ho
        injection ho with h1 _
        rw [← h1]; exact this
      · cases ho
  | giveUp id =>
    simp only [Topic.step] at ho
    split at ho
    · cases ho
    · next op hop =>
      have := ha.group id op hop
      split at ho
      · simp only [Topic.endFetch] at ho
        injection ho with h1 _
        rw [← h1]; exact this
      · cases ho
  | publish => simp [Topic.step] at ho
  | send i => simp only [Topic.step] at ho; split at ho <;> cases ho
  | join => simp only [Topic.step] at ho; cases ho
  | leave =>
    simp only [Topic.step, Topic.leave] at ho
    repeat' split at ho
    all_goals cases ho
  | disconnect => simp [Topic.step] at ho
  | abort => simp [Topic.step] at ho
  | ack =>
    simp only [Topic.step, Topic.ack] at ho
    repeat' split at ho
    all_goals cases ho
  | seek => simp only [Topic.step] at ho; cases ho
  | tick => simp [Topic.step] at ho
  | evictLoad => simp [Topic.step] at ho
  | evictRun => simp only [Topic.step] at ho; split at ho <;> cases ho
  | save => simp [Topic.step] at ho
  | retainSend => simp only [Topic.step] at ho; split at ho <;> cases ho
  | retainDone => simp only [Topic.step] at ho; split at ho <;> cases ho
  | read => simp only [Topic.step, Topic.startRead] at ho; split at ho <;> cases ho
  | readDone => simp only [Topic.step] at ho; split at ho <;> cases ho
  | storage => simp only [Topic.step] at ho; split at ho <;> cases ho
  | flush => simp [Topic.step] at ho
  | leak => simp [Topic.step] at ho
  | closeHandle => simp [Topic.step] at ho

theorem Agree.known {v : View} {L : Ledger} {g : Str} (h : Agree v L g) (hk : v.known = true) :
    L.crews g = some ⟨v.gen, v.members, v.fate⟩ := by
  have := h.crew
  cases hc : L.crews g with
  | none => rw [hc] at this; rw [this.1] at hk; cases hk
  | some C => rw [hc] at this; rw [this.2]

theorem Agree.unknown {v : View} {L : Ledger} {g : Str} (h : Agree v L g) (hk : v.known = false) : L.crews g = none := by
  have := h.crew
  cases hc : L.crews g with
  | none => rfl
  | some C => rw [hc] at this; rw [this.1] at hk; cases hk

/-- What a group is owed is still kept. -/
theorem owed_kept {g : Str} {t : Topic} {v : View} {J : List (Str × Str)} (h : Rel g t v J) (hk : v.known = true) {s : Nat} (ho : (v.fate s).owed = true) :
    v.head ≤ s := by
  cases hg : mget t.groups g with
  | none => rw [h.unknown hg] at hk; cases hk
  | some gr =>
    have hc := (h.grp gr hg).inv.core
    cases hf : v.fate s with
    | fresh => have := (hc.fresh s).1 hf; have := hc.headNext; omega
    | waiting k => have := hc.belowRed s ((hc.waiting s k).1 hf).1; omega
    | _ => rw [hf] at ho; cases ho

theorem ascii_append (a b : String) : ascii (a ++ b) = ascii a ++ ascii b := by simp [ascii]

end Verif.Rpc
