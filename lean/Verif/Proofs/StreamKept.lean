import Verif.Proofs.StreamSaved
import Verif.Proofs.StreamWait

/-!
# The progress of a group that has been saved is not lost

The flag `dirty` of a topic says that the progress of some group has changed since it was last sent to the storage task.
-/

namespace Verif.Stream

variable {crc : Bytes → Nat} {lossy : Bytes → Str} {name : Str} {t : Topic}

/-- Induction over the events that come after `es1`. -/
theorem events_ind {name : Str} (P : List Ev → Prop) (ok : Ev → Prop)
    (hP : ∀ es e, (joinIds name (es ++ [e])).Nodup → ok e → P es → P (es ++ [e])) (es2 : List Ev) :
    ∀ es1, (joinIds name (es1 ++ es2)).Nodup → (∀ e ∈ es2, ok e) → P es1 → P (es1 ++ es2) := by
  induction es2 with
  | nil => intro es1 _ _ h; simpa using h
  | cons e es ih =>
    intro es1 hnd hok h
    have e1 : es1 ++ e :: es = (es1 ++ [e]) ++ es := by simp
    rw [e1] at hnd ⊢
    exact ih (es1 ++ [e]) hnd (fun e' he' => hok e' (List.mem_cons_of_mem _ he'))
      (hP es1 e (joinIds_prefix hnd) (hok e List.mem_cons_self) h)

/-! ### The progress fits in eight bytes -/

theorem loadGroupsN_lt (n : Nat) : ∀ (b : Bytes) (acc : List (Str × Nat)),
    (∀ k f, mget acc k = some f → f < 2 ^ 64) → ∀ k f, mget (loadGroupsN crc lossy n b acc) k = some f → f < 2 ^ 64 := by
  induction n with
  | zero => intro b acc h; exact h
  | succ n ih =>
    intro b acc h
    simp only [loadGroupsN]
    split
    · exact h
    · next stored c rest _ =>
      split
      · exact h
      · split
        · exact ih _ _ h
        · split
          · exact ih _ _ h
          · refine ih _ _ (fun k f hk => ?_)
            rw [mget_mset] at hk
            split at hk
            · have h1 := Wire.beVal_lt (c.take 8)
              have h2 : (c.take 8).length ≤ 8 := by rw [List.length_take]; omega
              have h3 : 256 ^ (c.take 8).length ≤ 256 ^ 8 := Nat.pow_le_pow_right (by decide) h2
              have h4 : (256 : Nat) ^ 8 = 2 ^ 64 := by decide
              simp only [Option.some.injEq] at hk
              omega
            · exact h k f hk

theorem progress_lt {o : Option Bytes} {f : Nat} (h : progress crc lossy name o = some f) : f < 2 ^ 64 := by
  cases o with
  | none => cases h
  | some b => exact loadGroupsN_lt _ _ _ (fun k f h => by cases h) _ _ h

theorem bounded {base : Nat} {H : List Msg} {now : Nat} (hst : StartsWith crc base H now t) (hmd : 1 ≤ t.cfg.maxDeliveries)
    (es : List Ev) (hnd : (joinIds name es).Nodup) (hf : ∀ m ∈ published t.log.next es, Fits m)
    (hB : (t.run crc es).log.next ≤ 2 ^ 64) (hk : (viewAfter crc t name es).known = true) (s : Nat) (hs : 2 ^ 64 ≤ s) :
    (viewAfter crc t name es).fate s = .fresh := by
  have hS := hst.started hmd
  generalize hn : es.length = n
  induction n generalizing es with
  | zero =>
    rw [List.length_eq_zero_iff.1 hn] at hk hB ⊢
    obtain ⟨lossy, d, hd, ht⟩ := hst
    have hg := build_group crc lossy name t.cfg d
    rw [← ht] at hg
    simp only [viewAfter, View.after, View.start, Topic.trace, List.foldl_nil, mhas] at hk ⊢
    cases hp : progress crc lossy name d.groups with
    | none => rw [hg, hp] at hk; cases hk
    | some f =>
      rw [hp] at hg
      simp only [hg, Option.map_some]
      have h1 := progress_lt hp
      obtain ⟨_, _, hi, _, _⟩ := hS.reach name [] (by simp [joinIds])
      have h2 := hi.log.headNext
      simp only [Topic.run] at h2 hB
      rw [if_pos]
      simp only [Group.restore]
      have h3 : (2 : Nat) ^ 64 = 18446744073709551616 := by decide
      omega
  | succ n ih =>
    obtain ⟨pre, e, rfl, hl⟩ := snoc_split hn
    have hnd' := joinIds_prefix hnd
    have hf' := published_prefix_fits hf
    have hnext : (t.run crc pre).log.next ≤ (t.run crc (pre ++ [e])).log.next := by
      rw [run_append]; simp only [Topic.run]; rw [step_next]; omega
    have hB' := Nat.le_trans hnext hB
    obtain ⟨J, hr, hi, _⟩ := hS.reach name pre hnd'
    have heff := hS.effect name pre e hnd'
    by_cases hsk : ∃ b, e = .seek name b
    · obtain ⟨b, rfl⟩ := hsk
      rw [viewAfter_snoc]
      simp only [View.step, if_true, View.obs, List.foldl_cons, List.foldl_nil, fates, Fate.step]
      have := hi.log.headNext
      rw [if_pos]
      rw [hr.next, hr.head]
      split <;> omega
    have hsk' : ∀ b, e ≠ .seek name b := fun b hb => hsk ⟨b, hb⟩
    have hg : s ∉ given crc t name pre e := fun hg => by
      have := delivered_below hst pre e hf' hg; omega
    cases hkp : (viewAfter crc t name pre).known with
    | true =>
      have hfr := ih pre hnd' hf' hB' hkp hl
      rcases heff.keeps hsk' (.inl hkp) hg with h | ⟨_, _, _, _, ⟨_, _, _, h⟩, _⟩ | ⟨_, _, _, h, _⟩ | ⟨head, he, ho, hlt, _⟩
      · rw [h]; exact hfr
      · rw [hfr] at h; cases h
      · rw [hfr] at h; cases h
      · exfalso
        subst he
        simp only [Topic.step] at ho
        split at ho
        · next hd hret =>
          cases ho
          obtain ⟨_, _, hi', _⟩ := hS.reach name (pre ++ [Ev.retainDone]) hnd
          have h1 := hi'.log.headNext
          have e1 : (t.run crc (pre ++ [Ev.retainDone])).log.head = ((t.run crc pre).applyOutcome hd).log.head := by
            rw [run_append]; simp only [Topic.run, Topic.step, hret]
          omega
        · cases ho
    | false =>
      have : ∃ conn c, e = .join name conn c := by
        apply Classical.byContradiction
        intro hx
        rw [heff.unknown hkp hsk' (fun conn c hc => hx ⟨conn, c, hc⟩)] at hk
        cases hk
      obtain ⟨conn, c, rfl⟩ := this
      rw [viewAfter_snoc]
      simp only [View.step, if_true, hkp, Bool.false_eq_true, if_false, View.obs, List.foldl_cons, List.foldl_nil, fates, Fate.step]
      have := hi.log.headNext
      rw [if_pos]
      rw [hr.head]
      omega

/-! ### The saved progress is up to date unless the flag is set -/

/-- Everything up to `s` is settled, and `s` itself has been acknowledged or given up. -/
def Done (v : View) (s : Nat) : Prop :=
  v.known = true ∧ (∀ s' ≤ s, (v.fate s').settled = true) ∧ (v.fate s = .acked ∨ v.fate s = .gaveUp)

theorem floor_ge {head : Nat} {g : Group} {F : Nat → Fate} (h : GInv head g F) {s : Nat}
    (hs : ∀ s' ≤ s, (F s').settled = true) : s ≤ g.floor := by
  apply Nat.le_of_not_lt
  intro hlt
  obtain ⟨a, b, c⟩ := (settled_iff h _).1 (hs (g.floor + 1) hlt)
  rcases h.tight with h1 | h1 | h1
  · omega
  · rw [b] at h1; cases h1
  · exact c h1

theorem floor_lt {head : Nat} {g : Group} {F : Nat → Fate} (h : GInv head g F) {B : Nat}
    (hs : ∀ s, B ≤ s → F s = .fresh) : g.floor < B := by
  apply Nat.lt_of_not_le
  intro hle
  have := (h.core.fresh g.floor).1 (hs _ hle)
  have := h.core.floorLt
  omega

/-- The progress covers `s`. -/
def Covers (s : Nat) (o : Option Nat) : Prop := ∃ f, o = some f ∧ s ≤ f

theorem covers_written {v : View} {J : List (Str × Str)} (hr : Rel name t v J) (hn : Named (NameOk lossy) t.groups)
    (hk : v.known = true) {s : Nat} (hs : ∀ s' ≤ s, (v.fate s').settled = true) (hB : ∀ s, 2 ^ 64 ≤ s → v.fate s = .fresh)
    {d : List (Str × Nat)} (hp : d.Perm (t.groups.map (fun e => (e.1, e.2.floor)))) :
    Covers s (progress crc lossy name (some (groupsFile crc d))) := by
  rw [progress_written hn hp]
  obtain ⟨g, hgg⟩ : ∃ g, mget t.groups name = some g := by
    rw [hr.known] at hk
    exact Option.isSome_iff_exists.1 hk
  have hgr := hr.grp g hgg
  rw [hgg]
  refine ⟨_, rfl, ?_⟩
  show s ≤ g.floor % 2 ^ 64
  rw [Nat.mod_eq_of_lt (floor_lt hgr.inv hB)]
  exact floor_ge hgr.inv hs

/-- Nothing happens to the group in a save. -/
theorem save_view {es : List Ev} {order : List (Str × Nat) → List (Str × Nat)} :
    viewAfter crc t name (es ++ [.save order]) = viewAfter crc t name es := by
  rw [viewAfter_snoc]; rfl

theorem latest_step (crc : Bytes → Nat) (lossy : Bytes → Str) (name : Str) (t : Topic) (e : Ev) (h : ∀ order, e ≠ .save order) :
    latest crc lossy name (progress crc lossy name (t.step crc e).1.disk.groups) (t.step crc e).1.chan
      = latest crc lossy name (progress crc lossy name t.disk.groups) t.chan := by
  cases saves_step crc t e with
  | same cs hc hn hd => rw [hc, hd, latest_append, latest_noSaves hn]
  | save order he => exact absurd he (h order)
  | handled now he c hc hn hd =>
    rw [hc, hd]
    cases c with
    | save d => exact absurd List.mem_cons_self (hn d)
    | _ => rfl
  | written now he d hc hd =>
    rw [hc, hd]; rfl

theorem up_to_date {base : Nat} {H : List Msg} {now : Nat} (hst : StartsWith crc base H now t) (hmd : 1 ≤ t.cfg.maxDeliveries)
    (hn0 : Named (NameOk lossy) t.groups) (es : List Ev) (hnd : (joinIds name es).Nodup)
    (hf : ∀ m ∈ published t.log.next es, Fits m) (hB : (t.run crc es).log.next ≤ 2 ^ 64)
    (hn : ∀ e ∈ es, ∀ n, e.creates = some n → NameOk lossy n) (hd : (t.run crc es).dirty = false) (s : Nat)
    (hs : Done (viewAfter crc t name es) s) :
    Covers s (latest crc lossy name (progress crc lossy name (t.run crc es).disk.groups) (t.run crc es).chan) := by
  have hS := hst.started hmd
  generalize hlen : es.length = n
  induction n generalizing es with
  | zero =>
    exfalso
    rw [List.length_eq_zero_iff.1 hlen] at hs
    obtain ⟨_, _, h⟩ := hs
    simp only [viewAfter, View.after, View.start, Topic.trace, List.foldl_nil] at h
    split at h
    · split at h <;> rcases h with h | h <;> cases h
    · rcases h with h | h <;> cases h
  | succ n ih =>
    obtain ⟨pre, e, rfl, hl⟩ := snoc_split hlen
    have hnd' := joinIds_prefix hnd
    have hf' := published_prefix_fits hf
    have hnext : (t.run crc pre).log.next ≤ (t.run crc (pre ++ [e])).log.next := by
      rw [run_append]; simp only [Topic.run]; rw [step_next]; omega
    have hB' := Nat.le_trans hnext hB
    have hn' : ∀ e ∈ pre, ∀ n, e.creates = some n → NameOk lossy n := fun e he => hn e (List.mem_append_left _ he)
    obtain ⟨J, hr, hi, hcfg, _⟩ := hS.reach name pre hnd'
    obtain ⟨J', hr', _⟩ := hS.reach name (pre ++ [e]) hnd
    have heff := hS.effect name pre e hnd'
    have e1 : t.run crc (pre ++ [e]) = (Topic.step crc (t.run crc pre) e).1 := by rw [run_append]; rfl
    have ih := ih pre hnd' hf' hB' hn'
    by_cases hsave : ∃ order, e = .save order
    · obtain ⟨order, rfl⟩ := hsave
      rw [save_view] at hs
      cases hdd : (t.run crc pre).dirty with
      | false =>
        have e2 : (Topic.step crc (t.run crc pre) (.save order)).1 = t.run crc pre := by
          simp [Topic.step, Topic.saveGroups, hdd]
        rw [e1, e2]
        exact ih hdd hs hl
      | true =>
        rw [e1]
        cases hsv : saves_step crc (t.run crc pre) (.save order) with
        | save order' he _ d hp hc hd =>
          rw [hc, hd, latest_append]
          exact covers_written hr (Named.run crc pre t hn0 hn') hs.1 hs.2.1
            (bounded hst hmd pre hnd' hf' hB' hs.1) hp
        | same cs hc hnn hd =>
          exfalso
          have e3 : ∃ d, (Topic.step crc (t.run crc pre) (.save order)).1.chan = (t.run crc pre).chan ++ [.save d] := by
            simp only [Topic.step, Topic.saveGroups, hdd, if_true]
            exact ⟨_, rfl⟩
          obtain ⟨d, e3⟩ := e3
          rw [e3] at hc
          have := List.append_cancel_left hc
          exact hnn d (by rw [← this]; exact List.mem_cons_self)
        | handled now he => cases he
        | written now he => cases he
    · have hsave' : ∀ order, e ≠ .save order := fun o ho => hsave ⟨o, ho⟩
      rw [e1] at hd hr' ⊢
      rw [latest_step crc lossy name _ e hsave']
      have hdd : (t.run crc pre).dirty = false := by
        rcases dirty_step crc _ e hd with h | ⟨o, ho⟩
        · exact h
        · exact absurd ho (hsave' o)
      rw [← hcfg] at heff
      obtain ⟨k1, k2⟩ := clean_step hr hr' heff hs.1 hdd hd
      refine ih hdd ⟨k1, fun s' hs' => (k2 s').1 (hs.2.1 s' hs'), ?_⟩ hl
      have := (k2 s).2 hs.2.2
      rw [← this]
      exact hs.2.2

/-! ### From the channel to the file -/

/-- The file covers `s` once at most `k` more commands have been handled. -/
def Coverage (crc : Bytes → Nat) (lossy : Bytes → Str) (name : Str) (s k : Nat) (t : Topic) : Prop :=
  ∀ j, k ≤ j → Covers s (latest crc lossy name (progress crc lossy name t.disk.groups) (t.chan.take j))

theorem NoSaves.take {cs : List SCmd} (h : NoSaves cs) (j : Nat) : NoSaves (cs.take j) :=
  fun d hd => h d (List.mem_of_mem_take hd)

theorem storage_chan (crc : Bytes → Nat) (t : Topic) (at_ : Nat) (c : SCmd) (cs : List SCmd) (h : t.chan = c :: cs) :
    (t.step crc (.storage at_)).1.chan = cs := by
  simp only [Topic.step, h]
  cases c <;> rfl

theorem Coverage.step {v : View} {J : List (Str × Str)} {s k : Nat} (h : Coverage crc lossy name s k t) (hr : Rel name t v J)
    (hn : Named (NameOk lossy) t.groups) (hk : v.known = true) (hs : ∀ s' ≤ s, (v.fate s').settled = true)
    (hB : ∀ s, 2 ^ 64 ≤ s → v.fate s = .fresh) (e : Ev) :
    Coverage crc lossy name s (k - storages [e]) (Topic.step crc t e).1 := by
  by_cases hst : ∃ at_, e = .storage at_
  · obtain ⟨at_, rfl⟩ := hst
    cases hch : t.chan with
    | nil =>
      have e1 : (Topic.step crc t (.storage at_)).1 = t := by simp only [Topic.step, hch]
      rw [e1]
      intro j _
      have := h k (Nat.le_refl _)
      rw [hch] at this ⊢
      simpa using this
    | cons c cs =>
      have e1 := storage_chan crc t at_ c cs hch
      intro j hj
      have hj' := h (j + 1) (by simp only [storages] at hj; omega)
      rw [hch, List.take_succ_cons] at hj'
      cases hsv : saves_step crc t (.storage at_) with
      | same cs' hc =>
        exfalso
        have h1 := congrArg List.length hc
        rw [e1, hch] at h1
        simp at h1
        omega
      | save order he => cases he
      | handled now he c' hc hnn hd =>
        rw [hd, e1]
        rw [e1, hch] at hc
        cases hc
        cases c with
        | save d => exact absurd List.mem_cons_self (hnn d)
        | _ => exact hj'
      | written now he d hc hd =>
        rw [hd, e1]
        rw [e1, hch] at hc
        cases hc
        exact hj'
  · have h0 : storages [e] = 0 := by
      cases e <;> first | rfl | exact absurd ⟨_, rfl⟩ hst
    rw [h0, Nat.sub_zero]
    intro j hj
    cases hsv : saves_step crc t e with
    | same cs hc hnn hd =>
      rw [hc, hd, List.take_append, latest_append, latest_noSaves (hnn.take _)]
      exact h j hj
    | save order he _ d hp hc hd =>
      rw [hc, hd, List.take_append, latest_append]
      cases hjl : j - t.chan.length with
      | zero => exact h j hj
      | succ i =>
        rw [List.take_succ_cons, List.take_nil]
        exact covers_written hr hn hk hs hB hp
    | handled now he => exact absurd ⟨now, he⟩ hst
    | written now he => exact absurd ⟨now, he⟩ hst

theorem storages_append (a b : List Ev) : storages (a ++ b) = storages a + storages b := by
  induction a with
  | nil => simp [storages]
  | cons e a ih => cases e <;> simp only [List.cons_append, storages, ih] <;> omega

/-- The progress is in the file. -/
theorem kept {base : Nat} {H : List Msg} {now : Nat} (hst : StartsWith crc base H now t) (hmd : 1 ≤ t.cfg.maxDeliveries)
    (hn0 : Named (NameOk lossy) t.groups) (pre post : List Ev) (order : List (Str × Nat) → List (Str × Nat))
    (hnd : (joinIds name (pre ++ .save order :: post)).Nodup)
    (hf : ∀ m ∈ published t.log.next (pre ++ .save order :: post), Fits m)
    (hB : (t.run crc (pre ++ .save order :: post)).log.next ≤ 2 ^ 64)
    (hn : ∀ e ∈ pre ++ .save order :: post, ∀ n, e.creates = some n → NameOk lossy n)
    (hns : NoSeek name post) (hq : (t.run crc (pre ++ [.save order])).chan.length ≤ storages post) (s : Nat)
    (hs : Done (viewAfter crc t name pre) s) :
    Covers s (progress crc lossy name (t.run crc (pre ++ .save order :: post)).disk.groups) := by
  have hS := hst.started hmd
  have e0 : pre ++ .save order :: post = (pre ++ [.save order]) ++ post := by simp
  have mono : ∀ a b : List Ev, (t.run crc a).log.next ≤ (t.run crc (a ++ b)).log.next := by
    intro a b; rw [run_append, run_next crc (t.run crc a)]; omega
  rw [e0] at hnd hf hB hn ⊢
  have hdirty : (t.run crc (pre ++ [.save order])).dirty = false := by
    rw [run_append]
    simp only [Topic.run, Topic.step, Topic.saveGroups]
    cases hd : (t.run crc pre).dirty <;> simp [hd]
  have start : Coverage crc lossy name s (t.run crc (pre ++ [.save order])).chan.length (t.run crc (pre ++ [.save order])) := by
    intro j hj
    rw [List.take_of_length_le hj]
    exact up_to_date hst hmd hn0 _ (joinIds_prefix hnd) (published_prefix_fits hf) (Nat.le_trans (mono _ post) hB)
      (fun e he => hn e (List.mem_append_left _ he)) hdirty s (by rw [save_view]; exact hs)
  have key : ∀ p : List Ev, ∀ q, post = p ++ q →
      Coverage crc lossy name s ((t.run crc (pre ++ [.save order])).chan.length - storages p) (t.run crc (pre ++ [.save order] ++ p))
      ∧ (viewAfter crc t name (pre ++ [.save order] ++ p)).known = true
      ∧ ∀ s' ≤ s, ((viewAfter crc t name (pre ++ [.save order] ++ p)).fate s').settled = true := by
    intro p
    generalize hl : p.length = n
    induction n generalizing p with
    | zero =>
      intro q _
      rw [List.length_eq_zero_iff.1 hl, List.append_nil, save_view]
      exact ⟨by simpa [storages] using start, hs.1, hs.2.1⟩
    | succ n ih =>
      intro q hpq
      obtain ⟨p', e, rfl, hl'⟩ := snoc_split hl
      obtain ⟨i1, i2, i3⟩ := ih p' hl' (e :: q) (by rw [hpq]; simp)
      have e2 : pre ++ [.save order] ++ (p' ++ [e]) = (pre ++ [.save order] ++ p') ++ [e] := by simp
      have e3 : pre ++ [.save order] ++ post = (pre ++ [.save order] ++ p') ++ ([e] ++ q) := by rw [hpq]; simp
      rw [e2]
      have hndp : (joinIds name (pre ++ [.save order] ++ p')).Nodup := joinIds_prefix (e3 ▸ hnd)
      obtain ⟨J, hr, _⟩ := hS.reach name _ hndp
      have heff := hS.effect name _ e hndp
      have hse : ∀ b, e ≠ .seek name b := by
        rintro b rfl
        exact hns b (by rw [hpq]; simp)
      refine ⟨?_, heff.known i2, fun s' hs' => heff.settled hse i2 (i3 s' hs')⟩
      have hb := bounded hst hmd _ hndp (published_prefix_fits (e3 ▸ hf))
        (Nat.le_trans (mono _ ([e] ++ q)) (by rw [← e3]; exact hB)) i2
      have := i1.step hr (Named.run crc _ t hn0 (fun e' he' => hn e' (by rw [e3]; exact List.mem_append_left _ he'))) i2 i3 hb e
      rw [run_append crc (pre ++ [Ev.save order] ++ p') [e], storages_append, ← Nat.sub_sub]
      exact this
  have := (key post [] (by simp)).1
  rw [Nat.sub_eq_zero_of_le hq] at this
  have := this 0 (Nat.le_refl _)
  simpa [latest] using this

/-! ### A restored topic -/

theorem loadGroupsN_wf (n : Nat) : ∀ (b : Bytes) (acc : List (Str × Nat)), MWF acc → MWF (loadGroupsN crc lossy n b acc) := by
  induction n with
  | zero => intro b acc h; exact h
  | succ n ih =>
    intro b acc h
    simp only [loadGroupsN]
    split
    · exact h
    · split
      · exact h
      · split
        · exact ih _ _ h
        · split
          · exact ih _ _ h
          · exact ih _ _ (h.mset _ _)

theorem build_wf (crc : Bytes → Nat) (cfg : Cfg) (lossy : Bytes → Str) (d : Disk) : MWF (Topic.build crc cfg lossy d).groups := by
  have key : ∀ (l : List (Str × Nat)) (F : Nat → Group), MWF l → MWF (l.map (fun e => (e.1, F e.2))) := by
    intro l F h
    show (mkeys _).Nodup
    have : mkeys (l.map (fun e => (e.1, F e.2))) = mkeys l := by simp [mkeys]
    rw [this]; exact h
  simp only [Topic.build, Stream.recover]
  refine key _ (fun f => Group.restore f _ _ _ _) ?_
  cases d.groups with
  | none => exact List.nodup_nil
  | some b => exact loadGroupsN_wf _ _ _ List.nodup_nil

theorem StartsWith.named {base : Nat} {H : List Msg} {now : Nat} (hst : StartsWith crc base H now t)
    (h : ∀ n, mhas t.groups n = true → NameOk lossy n) : Named (NameOk lossy) t.groups := by
  refine ⟨?_, fun n hn => h n (mget_isSome.2 hn)⟩
  obtain ⟨lossy', d, _, ht⟩ := hst
  rw [ht]
  exact build_wf _ _ _ _

theorem clampHead_floor (g : Group) (head : Nat) : g.floor ≤ (g.clampHead head).1.floor := by
  unfold Group.clampHead
  split
  · simp only [Group.invalidate, Group.advance]
    obtain ⟨f, h1, h2, _⟩ := advanceN_spec (Group.next { g.dropBelow (max head 1) with fetchingCold := false })
      { g.dropBelow (max head 1) with fetchingCold := false }
    rw [h1]
    refine Nat.le_trans ?_ h2
    simp only [Group.dropBelow]
    split <;> omega
  · simp only [Group.dropBelow]
    split <;> omega

/-- Nothing has happened to the messages of a group that is not known. -/
theorem unknown_fate (hS : Started crc t) {es : List Ev} (hnd : (joinIds name es).Nodup)
    (hk' : (viewAfter crc t name es).known = false) (s : Nat) :
    (viewAfter crc t name es).fate s = .skipped ∨ (viewAfter crc t name es).fate s = .removed := by
  generalize hlen : es.length = n
  induction n generalizing es with
  | zero =>
    left
    rw [List.length_eq_zero_iff.1 hlen] at hk' ⊢
    simp only [viewAfter, View.after, View.start, Topic.trace, List.foldl_nil, mhas] at hk' ⊢
    split
    · next hg => rw [hg] at hk'; cases hk'
    · rfl
  | succ n ih =>
    obtain ⟨pre, e, rfl, hl⟩ := snoc_split hlen
    have hnd' := joinIds_prefix hnd
    have heff := hS.effect name pre e hnd'
    cases hk : (viewAfter crc t name pre).known with
    | true => rw [heff.known hk] at hk'; cases hk'
    | false =>
      by_cases hsk : ∃ b, e = .seek name b
      · obtain ⟨b, rfl⟩ := hsk
        rw [viewAfter_snoc] at hk'
        simp [View.step] at hk'
      by_cases hj : ∃ conn c, e = .join name conn c
      · obtain ⟨conn, c, rfl⟩ := hj
        rw [viewAfter_snoc] at hk'
        simp [View.step] at hk'
      have hns : ∀ b, e ≠ .seek name b := fun b hb => hsk ⟨b, hb⟩
      have hnj : ∀ conn c, e ≠ .join name conn c := fun conn c hb => hj ⟨conn, c, hb⟩
      have hg : s ∉ ((t.run crc pre).step crc e).2.gives name := fun hg => by
        have := (heff.gives_legal hg).2.2.2
        rw [hk] at this; cases this
      have hno := ih hnd' hk hl
      rcases heff.keeps hns (.inr hnj) hg with h1 | ⟨_, _, _, _, ⟨_, _, _, h1⟩, _⟩ | ⟨_, _, _, h1, _⟩ | ⟨_, _, _, _, h1⟩
      · rw [h1]; exact hno
      · rw [h1] at hno; rcases hno with h | h <;> cases h
      · rw [h1] at hno; rcases hno with h | h <;> cases h
      · exact .inr h1

theorem acked_known (hS : Started crc t) {es : List Ev} (hnd : (joinIds name es).Nodup) {s : Nat}
    (h : (viewAfter crc t name es).fate s = .acked ∨ (viewAfter crc t name es).fate s = .gaveUp) :
    (viewAfter crc t name es).known = true := by
  cases hk : (viewAfter crc t name es).known with
  | true => rfl
  | false =>
    rcases unknown_fate hS hnd hk s with h1 | h1 <;> rw [h1] at h <;> rcases h with h | h <;> cases h

end Verif.Stream
