import Verif.Proofs.StreamRpc2
import Verif.Props.StreamLog
import Verif.Props.StreamE2E

/-!
# Lemmas about the streams behind the network: from the steps of a topic to the acts of the server
-/

namespace Verif.Rpc

open Verif Verif.Wire Verif.Sdk
open Verif.Stream (Topic GErr Query Msg)

variable {E I : Type} {env : Env} {bg : I → Option (Str × Stream.Ev)}

/-! ### Which act a step belongs to -/

/-- The step `e` on topic `n` is part of the act, which is the `k`-th stream command if it is one. -/
inductive Source (env : Env) (bg : I → Option (Str × Stream.Ev)) (n : Str) (k : Nat) : Act I → Stream.Ev → Prop
  | pub (l pl now r) : Source env bg n k (.did l (.sPub n pl) now r) (.publish now pl)
  | join (l g now r) : Source env bg n k (.did l (.sJoin g n) now r) (.join g (env.conn l) (env.consumer k))
  | ack (l g c gen s now r) : Source env bg n k (.did l (.sAck n g c gen s) now r) (.ack g c gen s)
  | seek (l g b now r) : Source env bg n k (.did l (.sSeek n g b) now r) (.seek g b)
  | leave (l g c gen now r) : Source env bg n k (.did l (.sLeave n g c gen) now r) (.leave g c gen (env.order k))
  | start (l g c gen lim w now r poll) : Source env bg n k (.did l (.sFetch n g c gen lim w) now r) (.fetch g c gen lim poll)
  | work (l g c gen lim w now r id e) (h : Worker id now e) : Source env bg n k (.did l (.sFetch n g c gen lim w) now r) e
  | task (x e) (h : bg x = some (n, e)) : Source env bg n k (.ticked x) e

theorem source {n : Str} {k : Nat} {t : Topic} {a : Act I} {e : Stream.Ev} (h : e ∈ actSteps env bg n k t a) : Source env bg n k a e := by
  cases a with
  | ticked x =>
    simp only [actSteps] at h
    cases hx : bg x with
    | none => rw [hx] at h; cases h
    | some y =>
      obtain ⟨m, ev⟩ := y
      rw [hx] at h
      dsimp only at h
      split at h
      · next hm => rw [List.mem_singleton] at h; subst h; obtain ⟨rfl, _⟩ := hm; exact .task x _ hx
      · cases h
  | did l cmd now r =>
    simp only [actSteps] at h
    split at h
    · next hn =>
      cases cmd with
      | sPub m pl => simp only [streamSteps, List.mem_singleton] at h; injection hn with hn; subst hn h; exact .pub ..
      | sJoin g m => simp only [streamSteps, List.mem_singleton] at h; injection hn with hn; subst hn h; exact .join ..
      | sAck m g c gen s => simp only [streamSteps, List.mem_singleton] at h; injection hn with hn; subst hn h; exact .ack ..
      | sSeek m g b => simp only [streamSteps, List.mem_singleton] at h; injection hn with hn; subst hn h; exact .seek ..
      | sLeave m g c gen => simp only [streamSteps, List.mem_singleton] at h; injection hn with hn; subst hn h; exact .leave ..
      | sFetch m g c gen lim w =>
        injection hn with hn; subst hn
        simp only [streamSteps, fetchSteps] at h
        split at h
        · exact .work _ _ _ _ _ _ _ _ _ _ (fetchEnd_workers _ _ _ _ _ _ h)
        · rcases List.mem_cons.1 h with rfl | h
          · exact .start ..
          · split at h
            · exact .work _ _ _ _ _ _ _ _ _ _ (fetchEnd_workers _ _ _ _ _ _ h)
            · cases h
      | _ => exact nomatch h
    · cases h

/-- The step of an act other than a fetch. -/
theorem single {n : Str} {k : Nat} {t : Topic} {a : Act I} {e : Stream.Ev} {p s : List Stream.Ev} (h : actSteps env bg n k t a = p ++ e :: s)
    (hf : ∀ l g c gen lim w now r, a ≠ .did l (.sFetch n g c gen lim w) now r) : p = [] ∧ s = [] := by
  have key : ∀ x : Stream.Ev, [x] = p ++ e :: s → p = [] ∧ s = [] := by
    intro x hx
    cases p with
    | nil => injection hx with _ hx; exact ⟨rfl, hx.symm⟩
    | cons y p => injection hx with _ hx; cases p <;> cases hx
  cases a with
  | ticked x =>
    simp only [actSteps] at h
    cases hx : bg x with
    | none => rw [hx] at h; cases p <;> cases h
    | some y =>
      obtain ⟨m, ev⟩ := y
      rw [hx] at h
      dsimp only at h
      split at h
      · exact key _ h
      · cases p <;> cases h
  | did l cmd now r =>
    simp only [actSteps] at h
    split at h
    · next hn =>
      cases cmd with
      | sFetch m g c gen lim w => injection hn with hn; subst hn; exact absurd rfl (hf l g c gen lim w now r)
      | sPub m pl => exact key _ h
      | sJoin g m => exact key _ h
      | sAck m g c gen s => exact key _ h
      | sSeek m g b => exact key _ h
      | sLeave m g c gen => exact key _ h
      | _ => cases hn
    · cases p <;> cases h

/-- A step that answers a fetch belongs to the fetch's act, and is its answer. -/
theorem answer_act {n : Str} {k : Nat} {t : Topic} {a : Act I} {e : Stream.Ev} {p s : List Stream.Ev} {q : Query} {res : Except GErr (List Msg)}
    (h : actSteps env bg n k t a = p ++ e :: s) (ho : ((t.run env.crc p).step env.crc e).2 = .fetched q res) :
    ∃ l w now r, a = .did l (.sFetch n q.group q.consumer q.gen q.limit w) now r ∧
      (Outs env.crc t (streamSteps env k l now t (.sFetch n q.group q.consumer q.gen q.limit w))).findSome? fetchResult = some res := by
  have hm : e ∈ actSteps env bg n k t a := by rw [h]; simp
  have hsrc := source hm
  cases hsrc with
  | pub l pl now r => simp [Topic.step] at ho
  | join l g now r => simp only [Topic.step] at ho; cases ho
  | ack l g c gen sq now r =>
    simp only [Topic.step, Topic.ack] at ho
    split at ho
    · cases ho
    · split at ho <;> cases ho
  | seek l g b now r => simp only [Topic.step] at ho; cases ho
  | leave l g c gen now r =>
    simp only [Topic.step, Topic.leave] at ho
    repeat' split at ho
    all_goals cases ho
  | task x _ hx =>
    obtain ⟨rfl, rfl⟩ := single h (fun _ _ _ _ _ _ _ _ hc => by cases hc)
    simp only [actSteps, hx] at h
    split at h
    · next hn => rw [show t.run env.crc [] = t from rfl] at ho; rw [ho] at hn; exact absurd hn.2 (by simp [fetchResult])
    · cases h
  | start l g c gen lim w now r poll =>
    refine find_fetch (g := g) (c := c) (gen := gen) (lim := lim) h ho
  | work l g c gen lim w now r id _ hw => exact find_fetch h ho
where
  find_fetch {n : Str} {k : Nat} {t : Topic} {l : Nat} {g c : Str} {gen lim w now : Nat} {r : Option Response} {e : Stream.Ev} {p s : List Stream.Ev}
      {q : Query} {res : Except GErr (List Msg)}
      (h : actSteps env bg n k t (.did l (.sFetch n g c gen lim w) now r) = p ++ e :: s)
      (ho : ((t.run env.crc p).step env.crc e).2 = .fetched q res) :
      ∃ l' w' now' r', Act.did (I := I) l (.sFetch n g c gen lim w) now r = .did l' (.sFetch n q.group q.consumer q.gen q.limit w') now' r' ∧
        (Outs env.crc t (streamSteps env k l' now' t (.sFetch n q.group q.consumer q.gen q.limit w'))).findSome? fetchResult = some res := by
    have hst : fetchSteps env k now ⟨g, c, gen, lim⟩ (decide (w ≠ 0)) t = p ++ e :: s := by
      simpa [actSteps, onTopic, streamSteps] using h
    have hout : Stream.Out.fetched q res ∈ Outs env.crc t (fetchSteps env k now ⟨g, c, gen, lim⟩ (decide (w ≠ 0)) t) := by
      rw [hst, Outs_append]; simp [Outs, ho]
    rcases fetch_steps env k now ⟨g, c, gen, lim⟩ (decide (w ≠ 0)) t with ⟨pre, e', post, r', ha⟩ | hs
    · have hq : q = ⟨g, c, gen, lim⟩ ∧ res = r' := by
        rw [ha.split, Outs_append] at hout
        rcases List.mem_append.1 hout with hx | hx
        · exact absurd (ha.before _ hx) (by simp [fetchResult])
        · rcases List.mem_cons.1 hx with hx | hx
          · rw [ha.out] at hx
            injection hx with h1 h2
            exact ⟨h1, h2⟩
          · exact absurd (ha.after _ hx) (by simp [fetchResult])
      obtain ⟨rfl, rfl⟩ := hq
      exact ⟨l, w, now, r, rfl, ha.find⟩
    · exact absurd (hs _ hout) (by simp [fetchResult])

/-! ### Consumer ids -/

theorem joinIds_mem {g c : Str} {es : List Stream.Ev} (h : c ∈ Stream.joinIds g es) : ∃ conn, Stream.Ev.join g conn c ∈ es := by
  induction es with
  | nil => cases h
  | cons e es ih =>
    have go : c ∈ Stream.joinIds g es → ∃ conn, Stream.Ev.join g conn c ∈ e :: es := fun h => by
      obtain ⟨conn, h⟩ := ih h
      exact ⟨conn, List.mem_cons_of_mem _ h⟩
    cases e with
    | join g' conn c' =>
      simp only [Stream.joinIds] at h
      split at h
      · next hg =>
        subst hg
        rcases List.mem_cons.1 h with rfl | h
        · exact ⟨conn, List.mem_cons_self ..⟩
        · exact go h
      · exact go h
    | _ => exact go h

theorem joinIds_append (g : Str) (a b : List Stream.Ev) : Stream.joinIds g (a ++ b) = Stream.joinIds g a ++ Stream.joinIds g b := by
  induction a with
  | nil => rfl
  | cons e a ih =>
    cases e with
    | join g' conn c => simp only [List.cons_append, Stream.joinIds, ih]; split <;> rfl
    | _ => simpa only [List.cons_append, Stream.joinIds] using ih

/-- Tasks in the background do not join. -/
def Tasks (bg : I → Option (Str × Stream.Ev)) : Prop := ∀ x n ev, bg x = some (n, ev) → inBackground ev = true

theorem join_source (ht : Tasks bg) {n : Str} {k : Nat} {t : Topic} {a : Act I} {g conn c : Str} (h : Stream.Ev.join g conn c ∈ actSteps env bg n k t a) :
    ∃ l now r, a = .did l (.sJoin g n) now r ∧ conn = env.conn l ∧ c = env.consumer k := by
  have hs := source h
  cases hs with
  | join l g now r => exact ⟨l, now, r, rfl, rfl, rfl⟩
  | work _ _ _ _ _ _ _ _ id _ hw => rcases hw with hw | hw | hw | hw <;> cases hw
  | task x _ hx => exact absurd (ht _ _ _ hx) (by simp [inBackground])

theorem joins_act (ht : Tasks bg) (n g : Str) (k : Nat) (t : Topic) (a : Act I) :
    Stream.joinIds g (actSteps env bg n k t a) = [] ∨
    (Stream.joinIds g (actSteps env bg n k t a) = [env.consumer k] ∧ isStreamAct a = true) := by
  cases hj : Stream.joinIds g (actSteps env bg n k t a) with
  | nil => exact .inl rfl
  | cons c cs =>
    right
    obtain ⟨conn, hc⟩ := joinIds_mem (c := c) (by rw [hj]; exact List.mem_cons_self ..)
    obtain ⟨l, now, r, rfl, rfl, rfl⟩ := join_source ht hc
    simp only [actSteps, onTopic, if_true, streamSteps, Stream.joinIds] at hj
    injection hj with h1 h2
    rw [← h2]
    exact ⟨rfl, rfl⟩

theorem joinIds_range (ht : Tasks bg) (n g : Str) : ∀ (v : List (Act I)) (k : Nat) (t : Topic) (c : Str),
    c ∈ Stream.joinIds g (stepsFrom env bg n k t v) → ∃ j, k ≤ j ∧ j < k + v.countP isStreamAct ∧ c = env.consumer j := by
  intro v
  induction v with
  | nil => intro k t c h; cases h
  | cons a v ih =>
    intro k t c h
    simp only [stepsFrom, joinIds_append] at h
    rw [List.countP_cons]
    rcases List.mem_append.1 h with h | h
    · rcases joins_act ht n g k t a with h0 | ⟨h0, h1⟩
      · rw [h0] at h; cases h
      · rw [h0, List.mem_singleton] at h
        rw [if_pos h1]
        exact ⟨k, Nat.le_refl _, by omega, h⟩
    · obtain ⟨j, h1, h2, h3⟩ := ih _ _ c h
      exact ⟨j, by omega, by omega, h3⟩

theorem joinIds_nodup (ht : Tasks bg) (n g : Str) : ∀ (v : List (Act I)) (k : Nat) (t : Topic)
    (_ : ∀ i j, i < k + v.countP isStreamAct → j < k + v.countP isStreamAct → env.consumer i = env.consumer j → i = j),
    (Stream.joinIds g (stepsFrom env bg n k t v)).Nodup := by
  intro v
  induction v with
  | nil => intro k t _; exact List.nodup_nil
  | cons a v ih =>
    intro k t hinj
    rw [List.countP_cons] at hinj
    simp only [stepsFrom, joinIds_append]
    have ih' := ih (k + if isStreamAct a then 1 else 0) (t.run env.crc (actSteps env bg n k t a)) (by
      intro i j hi hj he
      exact hinj i j (by omega) (by omega) he)
    rcases joins_act ht n g k t a with h0 | ⟨h0, h1⟩
    · rw [h0]; exact ih'
    · rw [h0]
      refine List.nodup_cons.2 ⟨?_, ih'⟩
      intro hc
      obtain ⟨j, j1, j2, j3⟩ := joinIds_range ht n g _ _ _ _ hc
      rw [if_pos h1] at j1 j2 hinj
      have := hinj k j (by omega) (by omega) j3
      omega

/-! ### The wire -/

theorem readStream_wire (ms : List SMsg) (hm : ∀ m ∈ ms, m.seq < 2 ^ 64 ∧ m.timestamp < 2 ^ 64 ∧ m.payload.length < 2 ^ 32) :
    readStream ms.length (ms.flatMap (fun m => be64 m.seq ++ be64 m.timestamp ++ be32 m.payload.length ++ m.payload)) =
      ms.map (fun m => (m.seq, m.timestamp, m.payload)) := by
  induction ms with
  | nil => rfl
  | cons m t ih =>
    obtain ⟨h1, h2, h3⟩ := hm m (List.mem_cons_self ..)
    simp only [List.length_cons, readStream, List.flatMap_cons, List.map_cons]
    generalize hr : t.flatMap (fun m => be64 m.seq ++ be64 m.timestamp ++ be32 m.payload.length ++ m.payload) = rest
    have h8 : (be64 m.seq).length = 8 := be64_length _
    have h8' : (be64 m.timestamp).length = 8 := be64_length _
    have h16 : (be64 m.seq ++ be64 m.timestamp).length = 16 := by simp [h8, h8']
    have h20 : (be64 m.seq ++ be64 m.timestamp ++ be32 m.payload.length).length = 20 := by simp [h8, h8', be32_length]
    have ek : ((be64 m.seq ++ be64 m.timestamp ++ be32 m.payload.length ++ m.payload ++ rest).drop 16).take 4 = be32 m.payload.length := by
      rw [List.append_assoc, List.append_assoc, ← h16, List.drop_left, ← be32_length m.payload.length, List.take_left]
    have es : (be64 m.seq ++ be64 m.timestamp ++ be32 m.payload.length ++ m.payload ++ rest).take 8 = be64 m.seq := by
      simp only [List.append_assoc]; rw [← h8, List.take_left]
    have et : ((be64 m.seq ++ be64 m.timestamp ++ be32 m.payload.length ++ m.payload ++ rest).drop 8).take 8 = be64 m.timestamp := by
      simp only [List.append_assoc]
      conv => lhs; arg 2; rw [← h8]
      rw [List.drop_left, ← h8', List.take_left]
    have ed : (be64 m.seq ++ be64 m.timestamp ++ be32 m.payload.length ++ m.payload ++ rest).drop 20 = m.payload ++ rest := by
      rw [List.append_assoc, ← h20, List.drop_left]
    rw [ek, es, et, beVal_be32_lt h3, beVal_be64_lt h1, beVal_be64_lt h2, ← List.drop_drop, ed, List.take_left, List.drop_left, ← hr,
      ih (fun m hm' => hm m (List.mem_cons_of_mem _ hm'))]

theorem fetch_length (ms : List SMsg) : ms.length ≤ (wireFetch ms).length ∧ ∀ m ∈ ms, m.payload.length ≤ (wireFetch ms).length := by
  unfold wireFetch
  rw [List.length_append, be32_length]
  have : ms.length ≤ (ms.flatMap (fun m => be64 m.seq ++ be64 m.timestamp ++ be32 m.payload.length ++ m.payload)).length ∧
      ∀ m ∈ ms, m.payload.length ≤ (ms.flatMap (fun m => be64 m.seq ++ be64 m.timestamp ++ be32 m.payload.length ++ m.payload)).length := by
    induction ms with
    | nil => simp
    | cons m t ih =>
      obtain ⟨i1, i2⟩ := ih
      simp only [List.flatMap_cons, List.length_append, List.length_cons, be32_length, be64_length]
      refine ⟨by omega, ?_⟩
      intro x hx
      rcases List.mem_cons.1 hx with rfl | hx
      · omega
      · have := i2 x hx; omega
  obtain ⟨h1, h2⟩ := this
  exact ⟨by omega, fun m hm => by have := h2 m hm; omega⟩

/-- An answer that fits the wire is read back. -/
theorem fetched_wire {ms : List Msg} (hm : ∀ m ∈ ms, m.seq < 2 ^ 64 ∧ m.timestamp < 2 ^ 64) (hl : (wireFetch (ms.map wireMsg)).length < 2 ^ 32) :
    fetchedMsgs (some (.data (wireFetch (ms.map wireMsg)))) = ms.map (fun m => (m.seq, m.timestamp, m.payload)) := by
  obtain ⟨h1, h2⟩ := fetch_length (ms.map wireMsg)
  unfold fetchedMsgs
  dsimp only
  have e1 : (wireFetch (ms.map wireMsg)).take 4 = be32 (ms.map wireMsg).length := by
    unfold wireFetch; rw [← be32_length (ms.map wireMsg).length, List.take_left]
  have e2 : (wireFetch (ms.map wireMsg)).drop 4 =
      (ms.map wireMsg).flatMap (fun m => be64 m.seq ++ be64 m.timestamp ++ be32 m.payload.length ++ m.payload) := by
    unfold wireFetch; rw [← be32_length (ms.map wireMsg).length, List.drop_left]
  rw [e1, e2, beVal_be32_lt (by omega), readStream_wire, List.map_map]
  · rfl
  · intro m hx
    have hp := h2 m hx
    obtain ⟨m', hm', rfl⟩ := List.mem_map.1 hx
    exact ⟨(hm m' hm').1, (hm m' hm').2, by omega⟩

end Verif.Rpc
