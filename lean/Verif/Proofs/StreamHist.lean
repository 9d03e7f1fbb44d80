import Verif.Proofs.StreamView

/-!
# Histories of a topic and the observer of a group
-/

namespace Verif.Stream

open Group

theorem step_cfg (crc : Bytes → Nat) (t : Topic) (e : Ev) : (t.step crc e).1.cfg = t.cfg := by
  cases e with
  | send i => simp only [Topic.step]; split <;> rfl
  | leave g c gen order =>
    simp only [Topic.step, Topic.leave]
    split
    · rfl
    · split
      · rfl
      · split <;> rfl
  | disconnect conn order => exact (disconnect_frame t conn order).cfg
  | fetch g c gen l p => simp only [Topic.step]; split <;> rfl
  | attempt id now => exact (attempt_frame t id now).1.cfg
  | giveUp id =>
    simp only [Topic.step]
    split
    · rfl
    · split <;> rfl
  | finish id now =>
    simp only [Topic.step]
    split
    · rfl
    · split
      · exact (finishCold_frame t _ _ now).1.cfg
      · rfl
  | ack g c gen s =>
    simp only [Topic.step, Topic.ack]
    split
    · rfl
    · split <;> rfl
  | evictRun => simp only [Topic.step]; split <;> rfl
  | save order => simp only [Topic.step, Topic.saveGroups]; split <;> rfl
  | retainSend => simp only [Topic.step]; split <;> rfl
  | retainDone =>
    simp only [Topic.step]
    split
    · simp only [Topic.applyOutcome]; split <;> rfl
    · rfl
  | read f l => simp only [Topic.step, Topic.startRead]; split <;> rfl
  | readDone id => simp only [Topic.step]; split <;> rfl
  | storage now =>
    simp only [Topic.step]
    split
    · rfl
    · next c cs _ => cases c <;> rfl
  | flush now => simp only [Topic.step, Topic.flushAll]; split <;> rfl
  | _ => rfl

/-- Who has ever joined. -/
def joinedAfter (name : Str) (J : List (Str × Str)) : Ev → List (Str × Str)
  | .join g conn c => if g = name then (c, conn) :: J else J
  | _ => J

theorem Rel.step {name : Str} {t : Topic} {v : View} {J : List (Str × Str)} (ht : TInv t)
    (hmd : 1 ≤ t.cfg.maxDeliveries) (h : Rel name t v J) (crc : Bytes → Nat) (e : Ev)
    (hfresh : ∀ conn c, e = .join name conn c → ∀ cn, (c, cn) ∉ J) :
    Rel name (t.step crc e).1 (v.step t.cfg.maxDeliveries t.cfg.ackWait name (e, (t.step crc e).2))
      (joinedAfter name J e) := by
  cases e with
  | publish ts p =>
    exact
      { next := by show v.next + 1 = t.log.next + 1; rw [h.next]
        head := h.head, known := h.known, unk := h.unk, bind := h.bind, stale := h.stale, uniq := h.uniq
        grp := fun g hg => ⟨(h.grp g hg).inv, (h.grp g hg).gen, (h.grp g hg).mp, (h.grp g hg).aw, (h.grp g hg).md,
          (h.grp g hg).mem⟩ }
  | send i =>
    simp only [Topic.step]
    split
    · exact h
    · exact h.frame rfl rfl rfl rfl rfl
  | join g conn c =>
    exact (join_rel ht hmd h g conn c (fun hg cn => hfresh conn c (by rw [hg]) cn)).1
  | leave g c gen order =>
    simp only [Topic.step]
    rcases leave_rel h g c gen order with ⟨e, he⟩ | ⟨h1, h2⟩
    · rw [he]; exact h
    · rw [h1]; exact h2
  | disconnect conn order => exact disconnect_rel h conn order
  | fetch g c gen l p =>
    simp only [Topic.step]
    split <;> exact h.frame rfl rfl rfl rfl rfl
  | attempt id now => exact (attempt_rel ht h id now).1
  | giveUp id =>
    simp only [Topic.step]
    split
    · exact h
    · split
      · exact h.frame rfl rfl rfl rfl rfl
      · exact h
  | finish id now =>
    simp only [Topic.step]
    split
    · exact h
    · split
      · exact (finishCold_rel h _ _ now).1.frame rfl rfl rfl rfl rfl
      · exact h
  | abort id => exact h.frame rfl rfl rfl rfl rfl
  | ack g c gen s =>
    simp only [Topic.step]
    rcases ack_rel h g c gen s with ⟨e, he, hr⟩ | ⟨h1, h2⟩
    · rw [he]; exact hr
    · rw [h1]; exact h2
  | seek g e => exact seek_rel ht hmd h g e
  | tick now order => exact tick_rel h now order
  | evictLoad => exact h.frame rfl rfl rfl rfl rfl
  | evictRun =>
    simp only [Topic.step]
    split
    · exact h
    · exact h.frame rfl rfl rfl rfl rfl
  | save order =>
    simp only [Topic.step, Topic.saveGroups]
    split
    · exact h.frame rfl rfl rfl rfl rfl
    · exact h
  | retainSend =>
    simp only [Topic.step]
    split
    · exact h.frame rfl rfl rfl rfl rfl
    · exact h
  | retainDone =>
    simp only [Topic.step]
    split
    · exact (retain_rel ht h _).frame rfl rfl rfl rfl rfl
    · exact h
  | read f l =>
    simp only [Topic.step, Topic.startRead]
    split <;> exact h.frame rfl rfl rfl rfl rfl
  | readDone id =>
    simp only [Topic.step]
    split
    · exact h.frame rfl rfl rfl rfl rfl
    · exact h
  | storage now =>
    simp only [Topic.step]
    split
    · exact h
    · next c cs _ =>
      have h' : Rel name { t with chan := cs } v J := h.frame rfl rfl rfl rfl rfl
      cases c <;> exact h'.frame rfl rfl rfl rfl rfl
  | flush now =>
    simp only [Topic.step, Topic.flushAll]
    split <;> exact h.frame rfl rfl rfl rfl rfl
  | leak start n now => exact h.frame rfl rfl rfl rfl rfl
  | closeHandle start now => exact h.frame rfl rfl rfl rfl rfl

theorem run_cfg (crc : Bytes → Nat) (es : List Ev) (t : Topic) : (t.run crc es).cfg = t.cfg := by
  induction es generalizing t with
  | nil => rfl
  | cons e es ih => simp only [Topic.run]; rw [ih, step_cfg]

theorem TInv.run {t : Topic} (h : TInv t) (crc : Bytes → Nat) (es : List Ev) : TInv (t.run crc es) := by
  induction es generalizing t with
  | nil => exact h
  | cons e es ih => exact ih (h.step crc e)

theorem Rel.run {name : Str} {t : Topic} {v : View} {J : List (Str × Str)} (ht : TInv t)
    (hmd : 1 ≤ t.cfg.maxDeliveries) (h : Rel name t v J) (crc : Bytes → Nat) (es : List Ev)
    (hnd : (joinIds name es).Nodup) (hfresh : ∀ c ∈ joinIds name es, ∀ cn, (c, cn) ∉ J) :
    ∃ J', Rel name (t.run crc es) (v.after t.cfg.maxDeliveries t.cfg.ackWait name (t.trace crc es)) J'
      ∧ ∀ c cn, (c, cn) ∈ J' → c ∈ joinIds name es ∨ (c, cn) ∈ J := by
  induction es generalizing t v J with
  | nil => exact ⟨J, h, fun c cn hc => .inr hc⟩
  | cons e es ih =>
    have hstep := h.step ht hmd crc e (by
      intro conn c he cn
      refine hfresh c ?_ cn
      rw [he]; simp [joinIds])
    have hcfg := step_cfg crc t e
    have hsub : ∀ c, c ∈ joinIds name es → c ∈ joinIds name (e :: es) := by
      intro c hc
      cases e with
      | join g conn c' => simp only [joinIds]; split <;> simp [hc]
      | _ => exact hc
    have hnd' : (joinIds name es).Nodup := by
      cases e with
      | join g conn c' =>
        simp only [joinIds] at hnd
        split at hnd
        · exact (List.nodup_cons.1 hnd).2
        · exact hnd
      | _ => exact hnd
    have hJ : ∀ c ∈ joinIds name es, ∀ cn, (c, cn) ∉ joinedAfter name J e := by
      intro c hc cn hx
      cases e with
      | join g conn c' =>
        simp only [joinedAfter] at hx
        simp only [joinIds] at hnd
        split at hx
        · next hg =>
          rw [if_pos hg] at hnd
          simp only [List.mem_cons, Prod.mk.injEq] at hx
          rcases hx with hx | hx
          · exact (List.nodup_cons.1 hnd).1 (hx.1 ▸ hc)
          · exact hfresh c (hsub c hc) cn hx
        · exact hfresh c (hsub c hc) cn hx
      | _ => exact hfresh c (hsub c hc) cn hx
    obtain ⟨J', hr, hj⟩ := ih (ht.step crc e) (by rw [hcfg]; exact hmd) hstep hnd' hJ
    rw [hcfg] at hr
    refine ⟨J', hr, fun c cn hc => ?_⟩
    rcases hj c cn hc with hc | hc
    · exact .inl (hsub c hc)
    · cases e with
      | join g conn c' =>
        simp only [joinedAfter] at hc
        split at hc
        · next hg =>
          simp only [List.mem_cons, Prod.mk.injEq] at hc
          rcases hc with hc | hc
          · left; rw [hc.1]; simp [joinIds, hg]
          · exact .inr hc
        · exact .inr hc
      | _ => exact .inr hc

/-! ### The start -/

theorem mget_map' {α : Type} (m : List (Str × α)) (f : α → Group) (k : Str) :
    mget (m.map (fun e => (e.1, f e.2))) k = (mget m k).map f := by
  induction m with
  | nil => rfl
  | cons e t ih =>
    simp only [List.map_cons, mget_cons, ih]
    split <;> rfl

theorem build_inv {crc : Bytes → Nat} {cfg : Cfg} {lossy : Bytes → Str} {d : Disk} (h : GoodDisk crc lossy d) :
    TInv (Topic.build crc cfg lossy d) := by
  have hl : LInv (Log.restore cfg.softLimit (max (recover crc lossy d).head 1) (recover crc lossy d).msgs) := by
    have hh : (recover crc lossy d).head = d.headSeq := rfl
    rw [hh]
    have ha := h.above
    have hc := h.consecutive
    generalize (recover crc lossy d).msgs = ms at *
    cases ms with
    | nil =>
      exact ⟨by simp only [Log.restore]; omega, by simp [Log.restore], WindowOk.nil _,
        by simp only [Log.restore, List.getLast?_nil, List.head?_nil, Option.map_none, Option.getD_none, List.length_nil]; omega,
        by simp [Log.restore]⟩
    | cons m0 t =>
      have hw : WindowOk (m0 :: t) m0.seq := fun i m hm => hc i m m0 hm rfl
      have hlast : ∃ ml, (m0 :: t).getLast? = some ml ∧ ml.seq = m0.seq + t.length := by
        obtain ⟨ml, hml⟩ : ∃ ml, (m0 :: t)[t.length]? = some ml := by
          cases hx : (m0 :: t)[t.length]? with
          | some x => exact ⟨x, rfl⟩
          | none => simp at hx
        refine ⟨ml, ?_, hw _ _ hml⟩
        rw [List.getLast?_eq_getElem?]
        simpa using hml
      obtain ⟨ml, e1, e2⟩ := hlast
      have hm0 := ha m0 (by simp)
      refine ⟨by simp only [Log.restore]; omega, ?_, ?_, ?_, ?_⟩
      · simp only [Log.restore, e1, Option.map_some, Option.getD_some]; omega
      · simp only [Log.restore, List.head?_cons, Option.map_some, Option.getD_some]; exact hw
      · simp only [Log.restore, List.head?_cons, Option.map_some, Option.getD_some, e1, List.length_cons]; omega
      · intro m hm
        exact ha m hm
  refine ⟨hl, ?_, (fun c hc => by cases hc), (fun m hm => by cases hm), (fun m hm => by cases hm), (fun x hx => by cases hx)⟩
  intro s hs
  have := h.starts s hs
  have e : max (max d.headSeq 1) 1 = max d.headSeq 1 := by omega
  show s.start ≤ (((recover crc lossy d).msgs.getLast?.map (·.seq + 1)).getD (max (max d.headSeq 1) 1))
  rw [e]
  exact this

theorem build_rel {crc : Bytes → Nat} {cfg : Cfg} {lossy : Bytes → Str} {d : Disk} (hmd : 1 ≤ cfg.maxDeliveries)
    (name : Str) :
    Rel name (Topic.build crc cfg lossy d) (View.start (Topic.build crc cfg lossy d) name) [] := by
  refine
    { next := rfl, head := rfl, known := rfl, grp := ?_, unk := fun _ => ⟨rfl, rfl⟩, bind := (fun c cn hc => by cases hc),
      stale := (fun c cn hc => by cases hc), uniq := (fun c a b hc => by cases hc) }
  intro g hg
  have hh : 1 ≤ (Topic.build crc cfg lossy d).log.head := Nat.le_max_right _ _
  have hg' := hg
  simp only [Topic.build] at hg'
  rw [mget_map' _ (fun f => Group.restore f _ cfg.maxPending cfg.ackWait cfg.maxDeliveries)] at hg'
  cases hf : mget (recover crc lossy d).groups name with
  | none => rw [hf] at hg'; cases hg'
  | some f =>
    rw [hf] at hg'
    simp only [Option.map_some, Option.some.injEq] at hg'
    have hg2 : g = Group.restore f (Topic.build crc cfg lossy d).log.head cfg.maxPending cfg.ackWait cfg.maxDeliveries :=
      hg'.symm
    have hnext : g.next = g.floor + 1 := by
      rw [hg2]; simp only [Group.restore]; omega
    have hfl : (Topic.build crc cfg lossy d).log.head - 1 ≤ g.floor := by
      rw [hg2]; simp only [Group.restore]; omega
    refine ⟨?_, by rw [hg2]; rfl, by rw [hg2]; rfl, by rw [hg2]; rfl, by rw [hg2]; rfl, fun c cn => ?_⟩
    · refine GInv.start (first := g.floor + 1) hnext rfl ?_ (by rw [hg2]; rfl) (by rw [hg2]; rfl) (by rw [hg2]; rfl)
        (by rw [hg2]; rfl) (by rw [hg2]; exact hmd) _ (fun s => ?_)
      · show max (Topic.build crc cfg lossy d).log.head 1 ≤ g.floor + 1
        omega
      · simp only [View.start, hg]
        rfl
    · rw [hg2]
      simp only [Group.restore, View.start]
      simp

end Verif.Stream
