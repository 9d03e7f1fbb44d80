import Verif.Proofs.StreamFile
import Verif.Proofs.StreamLog
import Verif.Proofs.StreamTrace

/-!
# The saved progress of the groups

`progress crc lossy name b`: the position of group `name` in the group file `b`; `latest … chan`: the position once the
storage task has handled the commands `chan`.
-/

namespace Verif.Stream

open Group

variable {crc : Bytes → Nat} {lossy : Bytes → Str} {name : Str} {t : Topic}

/-- The saved progress of a group. -/
def progress (crc : Bytes → Nat) (lossy : Bytes → Str) (name : Str) : Option Bytes → Option Nat
  | none => none
  | some b => mget (loadGroups crc lossy b) name

/-- The saved progress after some commands. -/
def latest (crc : Bytes → Nat) (lossy : Bytes → Str) (name : Str) : Option Nat → List SCmd → Option Nat
  | x, [] => x
  | _, .save d :: cs => latest crc lossy name (progress crc lossy name (some (groupsFile crc d))) cs
  | x, _ :: cs => latest crc lossy name x cs

/-- No command of the list writes the group file. -/
def NoSaves (cs : List SCmd) : Prop := ∀ d, SCmd.save d ∉ cs

theorem latest_append (x : Option Nat) (a b : List SCmd) :
    latest crc lossy name x (a ++ b) = latest crc lossy name (latest crc lossy name x a) b := by
  induction a generalizing x with
  | nil => rfl
  | cons c a ih => cases c <;> simp only [List.cons_append, latest] <;> exact ih _

theorem latest_noSaves {x : Option Nat} {cs : List SCmd} (h : NoSaves cs) : latest crc lossy name x cs = x := by
  induction cs with
  | nil => rfl
  | cons c cs ih =>
    have h' : NoSaves cs := fun d hd => h d (List.mem_cons_of_mem _ hd)
    cases c with
    | save d => exact absurd List.mem_cons_self (h d)
    | _ => simp only [latest]; exact ih h'

/-! ### Which commands and which files -/

theorem leak_groups (d : Disk) (s n now : Nat) : (d.leak s n now).groups = d.groups := by
  unfold Disk.leak; split <;> rfl

theorem flush_groups (d : Disk) (s now : Nat) : (d.flush s now).groups = d.groups := by
  unfold Disk.flush; split
  · rfl
  · exact leak_groups _ _ _ _

theorem close_groups (d : Disk) (s now : Nat) : (d.close s now).groups = d.groups := flush_groups d s now

theorem openWriter_groups (d : Disk) (s now : Nat) : (d.openWriter s now).groups = d.groups := by
  unfold Disk.openWriter; split <;> rfl

theorem flushAll_groups (d : Disk) (now : Nat) : (d.flushAll now).groups = d.groups := by
  unfold Disk.flushAll
  generalize mkeys d.writers = L
  induction L generalizing d with
  | nil => rfl
  | cons s L ih => rw [List.foldl_cons, ih, flush_groups]

theorem appendTo_groups (ms : Nat) (d : Disk) (c : Ctx) (m : Msg) (now : Nat) : (appendTo crc ms d c m now).1.groups = d.groups := by
  unfold appendTo
  split
  · show ((d.close c.active now).openWriter m.seq now).groups = _
    rw [openWriter_groups, close_groups]
  · exact openWriter_groups _ _ _

/-- What a step does to the group file and to the commands on their way to the storage task. -/
inductive Saves (crc : Bytes → Nat) (t : Topic) (e : Ev) (t' : Topic) : Prop where
  | same (cs : List SCmd) (hc : t'.chan = t.chan ++ cs) (hn : NoSaves cs) (hd : t'.disk.groups = t.disk.groups)
  | save (order) (he : e = .save order) (hdirty : t.dirty = true) (d : List (Str × Nat))
      (hp : d.Perm (t.groups.map (fun e => (e.1, e.2.floor)))) (hc : t'.chan = t.chan ++ [.save d])
      (hd : t'.disk.groups = t.disk.groups)
  | handled (now : Nat) (he : e = .storage now) (c : SCmd) (hc : t.chan = c :: t'.chan) (hn : NoSaves [c])
      (hd : t'.disk.groups = t.disk.groups)
  | written (now : Nat) (he : e = .storage now) (d : List (Str × Nat)) (hc : t.chan = .save d :: t'.chan)
      (hd : t'.disk.groups = some (groupsFile crc d))

theorem dropBindings_chan (order : Str → List Nat) (bs : List (Str × Str)) : ∀ t : Topic,
    (bs.foldl (Topic.dropBinding order) t).chan = t.chan ∧ (bs.foldl (Topic.dropBinding order) t).disk = t.disk := by
  induction bs with
  | nil => intro t; exact ⟨rfl, rfl⟩
  | cons b bs ih =>
    intro t
    rw [List.foldl_cons]
    obtain ⟨h1, h2⟩ := ih (Topic.dropBinding order t b)
    have : (Topic.dropBinding order t b).chan = t.chan ∧ (Topic.dropBinding order t b).disk = t.disk := by
      unfold Topic.dropBinding
      split
      · exact ⟨rfl, rfl⟩
      · split <;> exact ⟨rfl, rfl⟩
    exact ⟨h1.trans this.1, h2.trans this.2⟩

theorem tryFetch_chan (t : Topic) (g c : Str) (gen l now : Nat) :
    (t.tryFetch g c gen l now).1.chan = t.chan ∧ (t.tryFetch g c gen l now).1.disk = t.disk :=
  ⟨(tryFetch_frame t g c gen l now).2.1, (tryFetch_frame t g c gen l now).1.disk⟩

theorem finishCold_chan (t : Topic) (op : FetchOp) (ms : List Msg) (now : Nat) :
    (t.finishCold op ms now).1.chan = t.chan ∧ (t.finishCold op ms now).1.disk = t.disk := by
  unfold Topic.finishCold
  split
  · exact ⟨rfl, rfl⟩
  · simp only
    split
    · exact ⟨rfl, rfl⟩
    · split <;> exact ⟨rfl, rfl⟩

theorem noSaves_nil : NoSaves [] := fun _ h => by cases h

theorem saves_step (crc : Bytes → Nat) (t : Topic) (e : Ev) : Saves crc t e (t.step crc e).1 := by
  have same : ∀ t' : Topic, t'.chan = t.chan → t'.disk.groups = t.disk.groups → Saves crc t e t' :=
    fun t' h1 h2 => .same [] (by rw [h1, List.append_nil]) noSaves_nil h2
  cases e with
  | publish ts p => exact same _ rfl rfl
  | send i =>
    simp only [Topic.step]
    split
    · exact same _ rfl rfl
    · next m _ => exact .same [.append m] rfl (fun d h => by simp at h) rfl
  | join g conn c => exact same _ rfl rfl
  | leave g c gen order =>
    simp only [Topic.step, Topic.leave]
    split
    · exact same _ rfl rfl
    · split
      · exact same _ rfl rfl
      · split <;> exact same _ rfl rfl
  | disconnect conn order =>
    simp only [Topic.step, Topic.disconnect]
    split
    · exact same _ rfl rfl
    · obtain ⟨h1, h2⟩ := dropBindings_chan order ‹_› { t with clients := mdel t.clients conn }
      exact same _ h1 (by rw [h2])
  | fetch g c gen l p =>
    simp only [Topic.step]
    split <;> exact same _ rfl rfl
  | attempt i at_ =>
    simp only [Topic.step, Topic.attempt]
    split
    · exact same _ rfl rfl
    · next op _ =>
      obtain ⟨h1, h2⟩ := tryFetch_chan t op.group op.consumer op.gen op.limit at_
      split
      · exact same _ rfl rfl
      · split
        · exact same _ h1 (by simp only [Topic.endFetch]; rw [h2])
        · exact same _ h1 (by simp only [Topic.endFetch]; rw [h2])
        · next fr _ => exact .same [.cold i fr op.limit] rfl (fun d h => by simp at h) (by simp only; rw [h2])
        · split
          · exact same _ h1 (by simp only; rw [h2])
          · exact same _ h1 (by simp only [Topic.endFetch]; rw [h2])
  | giveUp i =>
    simp only [Topic.step]
    split
    · exact same _ rfl rfl
    · split <;> exact same _ rfl rfl
  | finish i at_ =>
    simp only [Topic.step]
    split
    · exact same _ rfl rfl
    · next op _ =>
      split
      · next ms _ =>
        obtain ⟨h1, h2⟩ := finishCold_chan t op ms at_
        exact same _ h1 (by simp only [Topic.endFetch]; rw [h2])
      · exact same _ rfl rfl
  | abort i => exact same _ rfl rfl
  | ack g c gen s =>
    simp only [Topic.step, Topic.ack]
    split
    · exact same _ rfl rfl
    · split <;> exact same _ rfl rfl
  | seek g b => exact same _ rfl rfl
  | tick at_ order => exact same _ rfl rfl
  | evictLoad => exact same _ rfl rfl
  | evictRun =>
    simp only [Topic.step]
    split <;> exact same _ rfl rfl
  | save order =>
    simp only [Topic.step, Topic.saveGroups]
    split
    · next hd =>
      refine .save order rfl hd _ ?_ rfl rfl
      split
      · next hp => exact List.isPerm_iff.1 hp
      · exact List.Perm.refl _
    · exact same _ rfl rfl
  | retainSend =>
    simp only [Topic.step]
    split
    · exact .same [.retention] rfl (fun d h => by simp at h) rfl
    · exact same _ rfl rfl
  | retainDone =>
    simp only [Topic.step]
    split
    · unfold Topic.applyOutcome
      split <;> exact same _ rfl rfl
    · exact same _ rfl rfl
  | read f l =>
    simp only [Topic.step, Topic.startRead]
    split
    · exact .same [.coldRead t.nextOp (max f t.log.head) l] rfl (fun d h => by simp at h) rfl
    · exact same _ rfl rfl
  | readDone i =>
    simp only [Topic.step]
    split <;> exact same _ rfl rfl
  | storage at_ =>
    simp only [Topic.step]
    split
    · exact same _ rfl rfl
    · next c cs hc =>
      cases c with
      | append m => exact .handled at_ rfl _ hc (fun d h => by simp at h) (appendTo_groups _ _ _ _ _)
      | cold i fr l => exact .handled at_ rfl _ hc (fun d h => by simp at h) rfl
      | coldRead i fr l => exact .handled at_ rfl _ hc (fun d h => by simp at h) rfl
      | save d => exact .written at_ rfl d hc rfl
      | retention => exact .handled at_ rfl _ hc (fun d h => by simp at h) rfl
  | flush at_ =>
    simp only [Topic.step, Topic.flushAll]
    split <;> exact same _ rfl (flushAll_groups _ _)
  | leak a b c => exact same _ rfl (leak_groups _ _ _ _)
  | closeHandle a b => exact same _ rfl (close_groups _ _ _)

/-! ### Names of groups -/

/-- The names of the groups are different, and each has the property `P`. -/
structure Named (P : Str → Prop) (gs : List (Str × Group)) : Prop where
  wf : MWF gs
  ok : ∀ n ∈ mkeys gs, P n

variable {P : Str → Prop}

theorem Named.mset {gs : List (Str × Group)} (h : Named P gs) {n : Str} (g : Group) (hn : P n) : Named P (Verif.mset gs n g) :=
  ⟨h.wf.mset n g, fun k hk => by
    rcases mem_mkeys_mset.1 hk with rfl | hk
    · exact hn
    · exact h.ok k hk⟩

theorem Named.has {gs : List (Str × Group)} (h : Named P gs) {n : Str} {g : Group} (hn : mget gs n = some g) : P n :=
  h.ok n (mget_isSome.1 (by rw [hn]; rfl))

theorem Named.map {gs : List (Str × Group)} (h : Named P gs) (F : Str × Group → Group) :
    Named P (gs.map (fun e => (e.1, F e))) := by
  have : mkeys (gs.map (fun e => (e.1, F e))) = mkeys gs := by simp [mkeys]
  exact ⟨by show (mkeys _).Nodup; rw [this]; exact h.wf, by rw [this]; exact h.ok⟩

theorem Named.dropBindings (order : Str → List Nat) (bs : List (Str × Str)) : ∀ t : Topic, Named P t.groups →
    Named P (bs.foldl (Topic.dropBinding order) t).groups := by
  induction bs with
  | nil => intro t h; exact h
  | cons b bs ih =>
    intro t h
    rw [List.foldl_cons]
    refine ih _ ?_
    unfold Topic.dropBinding
    split
    · exact h
    · next hg =>
      split
      · exact h
      · exact h.mset _ (h.has hg)

theorem Named.tryFetch (h : Named P t.groups) (g c : Str) (gen l now : Nat) : Named P (t.tryFetch g c gen l now).1.groups := by
  unfold Topic.tryFetch
  split
  · exact h
  · next hg =>
    simp only
    split
    · exact h.mset _ (h.has hg)
    · split <;> exact h.mset _ (h.has hg)

theorem Named.finishCold (h : Named P t.groups) (op : FetchOp) (ms : List Msg) (now : Nat) :
    Named P (t.finishCold op ms now).1.groups := by
  unfold Topic.finishCold
  split
  · exact h
  · next hg =>
    simp only
    split
    · exact h.mset _ (h.has hg)
    · split <;> exact h.mset _ (h.has hg)

theorem Named.step (h : Named P t.groups) (crc : Bytes → Nat) (e : Ev) (he : ∀ n, e.creates = some n → P n) :
    Named P (Topic.step crc t e).1.groups := by
  cases e with
  | join g conn c => exact h.mset _ (he g rfl)
  | seek g b => exact h.mset _ (he g rfl)
  | leave g c gen order =>
    simp only [Topic.step, Topic.leave]
    split
    · exact h
    · next hg =>
      split
      · exact h
      · split
        · exact h
        · exact h.mset _ (h.has hg)
  | disconnect conn order =>
    simp only [Topic.step, Topic.disconnect]
    split
    · exact h
    · exact Named.dropBindings order _ _ h
  | fetch g c gen l p =>
    simp only [Topic.step]
    split <;> exact h
  | attempt i at_ =>
    simp only [Topic.step, Topic.attempt]
    split
    · exact h
    · next op _ =>
      have h' := h.tryFetch op.group op.consumer op.gen op.limit at_
      split
      · exact h
      · split
        · exact h'
        · exact h'
        · exact h'
        · split <;> exact h'
  | giveUp i =>
    simp only [Topic.step]
    split
    · exact h
    · split <;> exact h
  | finish i at_ =>
    simp only [Topic.step]
    split
    · exact h
    · next op _ =>
      split
      · next ms _ => exact h.finishCold op ms at_
      · exact h
  | ack g c gen s =>
    simp only [Topic.step, Topic.ack]
    split
    · exact h
    · next hg => split <;> exact h.mset _ (h.has hg)
  | tick at_ order => exact h.map (fun e => (e.2.checkRedelivery at_ (order e.1)).1)
  | evictRun => simp only [Topic.step]; split <;> exact h
  | save order => simp only [Topic.step, Topic.saveGroups]; split <;> exact h
  | retainSend => simp only [Topic.step]; split <;> exact h
  | retainDone =>
    simp only [Topic.step]
    split
    · next head _ =>
      unfold Topic.applyOutcome
      split
      · exact h.map (fun e => (e.2.clampHead head).1)
      · exact h
    · exact h
  | read f l => simp only [Topic.step, Topic.startRead]; split <;> exact h
  | readDone i => simp only [Topic.step]; split <;> exact h
  | storage at_ =>
    simp only [Topic.step]
    split
    · exact h
    · next c cs _ => cases c <;> exact h
  | send i => simp only [Topic.step]; split <;> exact h
  | flush at_ => simp only [Topic.step, Topic.flushAll]; split <;> exact h
  | publish ts p => exact h
  | abort i => exact h
  | evictLoad => exact h
  | leak a b c => exact h
  | closeHandle a b => exact h

theorem Named.run (crc : Bytes → Nat) (es : List Ev) : ∀ t : Topic, Named P t.groups →
    (∀ e ∈ es, ∀ n, e.creates = some n → P n) → Named P (t.run crc es).groups := by
  induction es with
  | nil => intro t h _; exact h
  | cons e es ih =>
    intro t h he
    exact ih _ (h.step crc e (he e List.mem_cons_self)) (fun e' h' => he e' (List.mem_cons_of_mem _ h'))

/-! ### What is written is read -/

theorem be64_mod (v : Nat) : Wire.be64 (v % 2 ^ 64) = Wire.be64 v := by
  unfold Wire.be64 Wire.be32
  simp only [List.cons_append, List.nil_append, List.cons.injEq, and_true]
  refine ⟨?_, ?_, ?_, ?_, ?_, ?_, ?_, ?_⟩ <;> apply UInt8.toNat_inj.1 <;> simp only [UInt8.toNat_ofNat'] <;> omega

theorem groupsFile_mod (gs : List (Str × Nat)) :
    groupsFile crc gs = groupsFile crc (gs.map (fun e => (e.1, e.2 % 2 ^ 64))) := by
  unfold groupsFile
  rw [List.flatMap_map]
  congr 1
  funext e
  simp only [groupEntry, groupContent, be64_mod]

theorem progress_written {gs : List (Str × Group)} (h : Named (NameOk lossy) gs) {d : List (Str × Nat)}
    (hp : d.Perm (gs.map (fun e => (e.1, e.2.floor)))) :
    progress crc lossy name (some (groupsFile crc d)) = (mget gs name).map (fun g => g.floor % 2 ^ 64) := by
  have hk : mkeys (d.map (fun e => (e.1, e.2 % 2 ^ 64))) = mkeys d := by simp [mkeys]
  have hkp : (mkeys d).Perm (mkeys gs) := by
    have := hp.map Prod.fst
    rw [List.map_map] at this
    exact this
  have hwd : (mkeys d).Nodup := hkp.nodup_iff.2 h.wf
  simp only [progress]
  rw [groupsFile_mod]
  unfold loadGroups
  rw [loadGroups_entries crc lossy _ ?_ [] _ (by omega), foldl_mset_get _ (by rw [hk]; exact hwd)]
  · have hmap : ∀ l : List (Str × Nat), mget (l.map (fun e => (e.1, e.2 % 2 ^ 64))) name = (mget l name).map (· % 2 ^ 64) := by
      intro l
      induction l with
      | nil => rfl
      | cons x l ih =>
        simp only [List.map_cons, mget_cons]
        split
        · rfl
        · exact ih
    rw [hmap]
    have hd : mget d name = (mget gs name).map (·.floor) := by
      cases hg : mget gs name with
      | none =>
        have := mget_eq_none.1 hg
        exact mget_eq_none.2 (fun hx => this (hkp.mem_iff.1 hx))
      | some g =>
        have hm : (name, g.floor) ∈ d := hp.mem_iff.2 (List.mem_map.2 ⟨(name, g), mget_some_mem hg, rfl⟩)
        exact (MWF.mem_iff hwd).1 hm
    rw [hd]
    cases mget gs name <;> rfl
  · intro e he
    obtain ⟨x, hx, rfl⟩ := List.mem_map.1 he
    have hn : x.1 ∈ mkeys gs := hkp.mem_iff.1 (List.mem_map.2 ⟨x, hx, rfl⟩)
    exact ⟨(h.ok _ hn).1, Nat.mod_lt _ (by decide), (h.ok _ hn).2⟩

/-! ### What has been saved is settled -/

/-- Everything up to the saved progress is settled. -/
structure SavedOk (crc : Bytes → Nat) (lossy : Bytes → Str) (name : Str) (t : Topic) (v : View) : Prop where
  file : ∀ f, progress crc lossy name t.disk.groups = some f → v.known = true ∧ ∀ s ≤ f, (v.fate s).settled = true
  chan : ∀ d, SCmd.save d ∈ t.chan → ∀ f, progress crc lossy name (some (groupsFile crc d)) = some f →
    v.known = true ∧ ∀ s ≤ f, (v.fate s).settled = true

theorem SavedOk.step {v v' : View} {J : List (Str × Str)} {e : Ev} (h : SavedOk crc lossy name t v) (hr : Rel name t v J)
    (hn : Named (NameOk lossy) t.groups) {max wait : Nat} (heff : Effect max wait name v (e, (Topic.step crc t e).2) v')
    (hns : ∀ b, e ≠ .seek name b) : SavedOk crc lossy name (Topic.step crc t e).1 v' := by
  have keep : ∀ f, (v.known = true ∧ ∀ s ≤ f, (v.fate s).settled = true) →
      v'.known = true ∧ ∀ s ≤ f, (v'.fate s).settled = true :=
    fun f ⟨h1, h2⟩ => ⟨heff.known h1, fun s hs => heff.settled hns h1 (h2 s hs)⟩
  cases saves_step crc t e with
  | same cs hc hn hd =>
    refine ⟨fun f hf => keep f (h.file f (by rw [← hd]; exact hf)), fun d hdm f hf => ?_⟩
    rw [hc] at hdm
    rcases List.mem_append.1 hdm with hm | hm
    · exact keep f (h.chan d hm f hf)
    · exact absurd hm (hn d)
  | save order he _ d hp hc hd =>
    refine ⟨fun f hf => keep f (h.file f (by rw [← hd]; exact hf)), fun d' hdm f hf => keep f ?_⟩
    rw [hc] at hdm
    rcases List.mem_append.1 hdm with hm | hm
    · exact h.chan d' hm f hf
    · simp only [List.mem_singleton, SCmd.save.injEq] at hm
      subst hm
      rw [progress_written hn hp] at hf
      cases hg : mget t.groups name with
      | none => rw [hg] at hf; cases hf
      | some g =>
        rw [hg] at hf
        simp only [Option.map_some, Option.some.injEq] at hf
        have hgr := hr.grp g hg
        refine ⟨by rw [hr.known]; simp [Verif.mhas, hg], fun s hs => ?_⟩
        have hle : s ≤ g.floor := Nat.le_trans hs (by rw [← hf]; exact Nat.mod_le _ _)
        have := hgr.inv.core.floorLt
        exact (settled_iff hgr.inv s).2 ⟨by omega, hgr.inv.core.floorOk s hle⟩
  | handled now he c hc hn hd =>
    refine ⟨fun f hf => keep f (h.file f (by rw [← hd]; exact hf)), fun d hdm f hf => keep f (h.chan d ?_ f hf)⟩
    rw [hc]; exact List.mem_cons_of_mem _ hdm
  | written now he d hc hd =>
    refine ⟨fun f hf => keep f (h.chan d (by rw [hc]; exact List.mem_cons_self) f (by rw [← hd]; exact hf)),
      fun d' hdm f hf => keep f (h.chan d' ?_ f hf)⟩
    rw [hc]; exact List.mem_cons_of_mem _ hdm

theorem build_group (crc : Bytes → Nat) (lossy : Bytes → Str) (name : Str) (cfg : Cfg) (d : Disk) :
    mget (Topic.build crc cfg lossy d).groups name = (progress crc lossy name d.groups).map (fun f =>
      Group.restore f (Topic.build crc cfg lossy d).log.head cfg.maxPending cfg.ackWait cfg.maxDeliveries) := by
  have key : ∀ (l : List (Str × Nat)) (F : Nat → Group), mget (l.map (fun e => (e.1, F e.2))) name = (mget l name).map F := by
    intro l F
    induction l with
    | nil => rfl
    | cons x l ih =>
      simp only [List.map_cons, mget_cons]
      split
      · rfl
      · exact ih
  simp only [Topic.build, Stream.recover]
  rw [key _ (fun f => Group.restore f _ _ _ _)]
  cases d.groups <;> rfl

/-- After a restart nothing up to the saved progress is delivered. -/
theorem build_view {cfg : Cfg} {d : Disk} {f : Nat} (h : progress crc lossy name d.groups = some f) :
    (View.start (Topic.build crc cfg lossy d) name).known = true
    ∧ ∀ s ≤ f, (View.start (Topic.build crc cfg lossy d) name).fate s = .skipped := by
  have hg := build_group crc lossy name cfg d
  rw [h] at hg
  simp only [View.start, hg, mhas, Option.map_some, Option.isSome_some, true_and]
  intro s hs
  have : ¬ (Group.restore f (Topic.build crc cfg lossy d).log.head cfg.maxPending cfg.ackWait cfg.maxDeliveries).floor < s := by
    simp only [Group.restore]; omega
  rw [if_neg this]

/-- After a restart everything above the saved progress is delivered. -/
theorem build_fresh {cfg : Cfg} {d : Disk} {s : Nat} (h : ∀ f, progress crc lossy name d.groups = some f → f < s)
    (hh : (Topic.build crc cfg lossy d).log.head ≤ s) (hs : 1 ≤ s) (conn c : Str) :
    (viewAfter crc (Topic.build crc cfg lossy d) name [.join name conn c]).fate s = .fresh := by
  have hg := build_group crc lossy name cfg d
  generalize Topic.build crc cfg lossy d = t at *
  simp only [viewAfter, View.after, Topic.trace, List.foldl_cons, List.foldl_nil, View.step, if_pos]
  cases hp : progress crc lossy name d.groups with
  | none =>
    rw [hp] at hg
    simp only [View.start, hg, mhas, Option.map_none, Option.isSome_none, Bool.false_eq_true, if_false, View.obs,
      List.foldl_cons, List.foldl_nil, fates, Fate.step, if_pos hh]
  | some f =>
    rw [hp] at hg
    have : (Group.restore f t.log.head cfg.maxPending cfg.ackWait cfg.maxDeliveries).floor < s := by
      have := h f hp
      simp only [Group.restore]; omega
    simp only [View.start, hg, mhas, Option.map_some, Option.isSome_some, if_true, if_pos this]

theorem SavedOk.run {cfg : Cfg} {d : Disk} (ht : t = Topic.build crc cfg lossy d) (hst : Started crc t)
    (hn0 : Named (NameOk lossy) t.groups) (es : List Ev) (hnd : (joinIds name es).Nodup) (hns : NoSeek name es)
    (hn : ∀ e ∈ es, ∀ n, e.creates = some n → NameOk lossy n) :
    SavedOk crc lossy name (t.run crc es) (viewAfter crc t name es) := by
  have key := hist_ind (name := name) hst
    (fun es v => (∀ e ∈ es, ∀ n, e.creates = some n → NameOk lossy n) → SavedOk crc lossy name (t.run crc es) v)
    (fun e => ∀ b, e ≠ .seek name b) ?_ es [] (by simpa using hnd)
    (fun e he b hb => hns b (by rw [← hb]; exact he)) ?_
  · simpa using key (by simpa using hn)
  · intro es e v' hnd' hns' ih heff hn'
    have hn1 : ∀ e ∈ es, ∀ n, e.creates = some n → NameOk lossy n := fun e he => hn' e (List.mem_append_left _ he)
    obtain ⟨J, hr, _⟩ := hst.reach name es (joinIds_prefix hnd')
    rw [run_append]
    exact (ih hn1).step hr (Named.run crc es t hn0 hn1) heff hns'
  · intro _
    refine ⟨fun f hf => ?_, fun d' hd' => ?_⟩
    · have hf' : progress crc lossy name d.groups = some f := by rw [ht] at hf; exact hf
      obtain ⟨h1, h2⟩ := build_view (cfg := cfg) hf'
      rw [← ht] at h1 h2
      exact ⟨h1, fun s hs => by rw [show viewAfter crc t name [] = View.start t name from rfl, h2 s hs]; rfl⟩
    · rw [ht] at hd'; cases hd'

/-! ### Nothing is forgotten: the dirty flag -/

theorem dropBinding_dirty (order : Str → List Nat) (t : Topic) (b : Str × Str)
    (h : (Topic.dropBinding order t b).dirty = false) : Topic.dropBinding order t b = t := by
  revert h
  unfold Topic.dropBinding
  split
  · exact fun _ => rfl
  · split
    · exact fun _ => rfl
    · intro h; cases h

theorem dropBindings_dirty (order : Str → List Nat) (bs : List (Str × Str)) : ∀ t : Topic,
    (bs.foldl (Topic.dropBinding order) t).dirty = false →
    t.dirty = false ∧ ∀ b ∈ bs, ∀ g, mget t.groups b.1 = some g → mget g.members b.2 = none := by
  induction bs with
  | nil => intro t h; exact ⟨h, fun b hb => by cases hb⟩
  | cons b0 bs ih =>
    intro t h
    rw [List.foldl_cons] at h
    obtain ⟨h1, h2⟩ := ih _ h
    have he := dropBinding_dirty order t b0 h1
    rw [he] at h1 h2
    refine ⟨h1, fun b hb g hg => ?_⟩
    rcases List.mem_cons.1 hb with rfl | hb
    · unfold Topic.dropBinding at he
      rw [hg] at he
      simp only [Group.removeMember] at he
      cases hm : mget g.members b.2 with
      | none => rfl
      | some conn =>
        rw [hm] at he
        simp only at he
        have := congrArg Topic.dirty he
        rw [h1] at this
        cases this
    · exact h2 b hb g hg

theorem tryFetch_dirty (t : Topic) (g c : Str) (gen l now : Nat) (h : (t.tryFetch g c gen l now).1.dirty = false) :
    t.dirty = false := by
  unfold Topic.tryFetch at h
  split at h
  · exact h
  · simp only at h
    split at h
    · exact h
    · split at h
      · exact h
      · simp only [Bool.or_eq_false_iff] at h; exact h.1

theorem finishCold_dirty (t : Topic) (op : FetchOp) (ms : List Msg) (now : Nat) (h : (t.finishCold op ms now).1.dirty = false) :
    t.dirty = false := by
  unfold Topic.finishCold at h
  split at h
  · exact h
  · simp only at h
    split at h
    · exact h
    · split at h
      · exact h
      · simp only [Bool.or_eq_false_iff] at h; exact h.1

/-- Only a save clears the flag. -/
theorem dirty_step (crc : Bytes → Nat) (t : Topic) (e : Ev) (h : (t.step crc e).1.dirty = false) :
    t.dirty = false ∨ ∃ order, e = .save order := by
  cases e with
  | save order => exact .inr ⟨order, rfl⟩
  | publish ts p => exact .inl h
  | send i => left; simp only [Topic.step] at h; split at h <;> exact h
  | join g conn c =>
    simp only [Topic.step, Topic.join, Bool.or_eq_false_iff] at h
    exact .inl h.1.1
  | leave g c gen order =>
    left
    simp only [Topic.step, Topic.leave] at h
    split at h
    · exact h
    · split at h
      · exact h
      · split at h
        · exact h
        · cases h
  | disconnect conn order =>
    left
    simp only [Topic.step, Topic.disconnect] at h
    split at h
    · exact h
    · exact (dropBindings_dirty order _ _ h).1
  | fetch g c gen l p => left; simp only [Topic.step] at h; split at h <;> exact h
  | attempt i at_ =>
    left
    simp only [Topic.step, Topic.attempt] at h
    split at h
    · exact h
    · next op _ =>
      have key := tryFetch_dirty t op.group op.consumer op.gen op.limit at_
      split at h
      · exact h
      · split at h
        · exact key h
        · exact key h
        · exact key h
        · split at h <;> exact key h
  | giveUp i =>
    left
    simp only [Topic.step] at h
    split at h
    · exact h
    · split at h <;> exact h
  | finish i at_ =>
    left
    simp only [Topic.step] at h
    split at h
    · exact h
    · next op _ =>
      split at h
      · next ms _ => exact finishCold_dirty t op ms at_ h
      · exact h
  | abort i => exact .inl h
  | ack g c gen s =>
    left
    simp only [Topic.step, Topic.ack] at h
    split at h
    · exact h
    · split at h
      · exact h
      · cases h
  | seek g b => cases h
  | tick at_ order =>
    simp only [Topic.step, Topic.tick, Bool.or_eq_false_iff] at h
    exact .inl h.1
  | evictLoad => exact .inl h
  | evictRun => left; simp only [Topic.step] at h; split at h <;> exact h
  | retainSend => left; simp only [Topic.step] at h; split at h <;> exact h
  | retainDone =>
    left
    simp only [Topic.step] at h
    split at h
    · unfold Topic.applyOutcome at h
      split at h
      · simp only [Bool.or_eq_false_iff] at h; exact h.1
      · exact h
    · exact h
  | read f l => left; simp only [Topic.step, Topic.startRead] at h; split at h <;> exact h
  | readDone i => left; simp only [Topic.step] at h; split at h <;> exact h
  | storage at_ =>
    left
    simp only [Topic.step] at h
    split at h
    · exact h
    · next c cs _ => cases c <;> exact h
  | flush at_ => left; simp only [Topic.step, Topic.flushAll] at h; split at h <;> exact h
  | leak a b c => exact .inl h
  | closeHandle a b => exact .inl h

/-- A step that leaves the flag clear settles nothing. -/
theorem clean_step {v v' : View} {J J' : List (Str × Str)} {e : Ev} (hr : Rel name t v J)
    (hr' : Rel name (Topic.step crc t e).1 v' J') {max : Nat}
    (heff : Effect max t.cfg.ackWait name v (e, (Topic.step crc t e).2) v') (hk' : v'.known = true)
    (h0 : t.dirty = false) (h : (Topic.step crc t e).1.dirty = false) :
    v.known = true ∧ ∀ s, ((v'.fate s).settled = true → (v.fate s).settled = true)
      ∧ (v'.fate s = .acked ∨ v'.fate s = .gaveUp → v'.fate s = v.fate s) := by
  have hns : ∀ b, e ≠ .seek name b := fun b hb => by subst hb; cases h
  have hnj : v.known = true ∨ ∀ conn c, e ≠ .join name conn c := by
    cases hk : v.known with
    | true => exact .inl rfl
    | false =>
      right
      rintro conn c rfl
      simp only [Topic.step, Topic.join, Bool.or_eq_false_iff] at h
      rw [hr.known] at hk
      rw [hk] at h
      exact absurd h.1.2 (by simp)
  have hk : v.known = true := by
    cases hk : v.known with
    | true => rfl
    | false =>
      exfalso
      rcases hnj with hnj | hnj
      · rw [hk] at hnj; cases hnj
      · rw [heff.unknown hk hns hnj] at hk'; cases hk'
  refine ⟨hk, fun s => ?_⟩
  obtain ⟨g, hgg⟩ : ∃ g, mget t.groups name = some g := by
    rw [hr.known] at hk
    exact Option.isSome_iff_exists.1 hk
  have hgr := hr.grp g hgg
  by_cases hg : s ∈ (Topic.step crc t e).2.gives name
  · obtain ⟨_, ⟨c, now, hh⟩, _⟩ := heff.gives_legal hg
    rw [hh]
    exact ⟨(fun h => by cases h), (fun h => by rcases h with h | h <;> cases h)⟩
  rcases heff.keeps hns (.inl hk) hg with h1 | ⟨c, gen, he, ho, _, _⟩ | ⟨c, at_, k, h1, _, h2⟩ | ⟨head, he, ho, hlt, h1⟩
  · rw [h1]; exact ⟨id, fun _ => rfl⟩
  · exfalso
    subst he
    simp only [Topic.step, Topic.ack] at h ho
    split at ho
    · cases ho
    · split at ho
      · cases ho
      · next hg1 _ hx => rw [hg1] at h; simp only [hx] at h; cases h
  · exfalso
    have hp := (hgr.inv.core.held s c at_ k).1 h1
    rcases h2 with ⟨gen, order, rfl, ho⟩ | ⟨conn, order, rfl, hm⟩ | ⟨at', order, rfl, hlate⟩
    · simp only [Topic.step, Topic.leave] at h ho
      split at ho
      · cases ho
      · next hg1 =>
        split at ho
        · cases ho
        · next hx =>
          split at ho
          · cases ho
          · next hy => rw [hg1] at h; simp only [if_neg hx, hy] at h; cases h
    · have hb := hr.bind c conn hm
      simp only [Topic.step, Topic.disconnect] at h
      cases hcl : mget t.clients conn with
      | none => rw [hcl] at hb; cases hb
      | some bs =>
        rw [hcl] at hb h
        simp only [Option.getD_some] at hb h
        have := (dropBindings_dirty order bs _ h).2 (name, c) hb g hgg
        rw [(hgr.mem c conn).2 hm] at this
        cases this
    · simp only [Topic.step, Topic.tick, Bool.or_eq_false_iff, List.any_eq_false] at h
      have hx := h.2 (name, g) (mget_some_mem hgg)
      simp only [checkRedelivery] at hx
      have hne : (g.expired at').isEmpty = false := by
        have : s ∈ g.expired at' := by
          unfold Group.expired
          refine List.mem_map.2 ⟨(s, ⟨c, at_, k⟩), List.mem_filter.2 ⟨mget_some_mem hp, ?_⟩, rfl⟩
          simp only [decide_eq_true_eq]
          rw [hgr.aw]
          exact hlate
        cases he : g.expired at' with
        | nil => rw [he] at this; cases this
        | cons _ _ => rfl
      rw [hne] at hx
      simp at hx
  · rw [h1]
    refine ⟨fun _ => ?_, fun h => by rcases h with h | h <;> cases h⟩
    subst he
    have hg' : mget (Topic.step crc t .retainDone).1.groups name = some g := by
      simp only [Topic.step] at h ⊢
      split
      · next hd hret =>
        rw [hret] at h
        simp only at h
        unfold Topic.applyOutcome at h ⊢
        split
        · next hne =>
          rw [if_pos hne] at h
          simp only [Bool.or_eq_false_iff, List.any_eq_false] at h
          have hmap : ∀ (l : List (Str × Group)) (F : Group → Group), mget (l.map (fun e => (e.1, F e.2))) name = (mget l name).map F := by
            intro l F
            induction l with
            | nil => rfl
            | cons x l ih =>
              simp only [List.map_cons, mget_cons]
              split
              · rfl
              · exact ih
          simp only
          rw [hmap t.groups (fun g => (g.clampHead hd).1), hgg]
          have hx := h.2 (name, g) (mget_some_mem hgg)
          simp only [clampHead] at hx ⊢
          simp only [Option.map_some, Option.some.injEq]
          split at hx
          · simp at hx
          · next hb => rw [if_neg hb]; exact dropBelow_of_unchanged (by simpa using hb)
        · exact hgg
      · exact hgg
    have hgr' := hr'.grp g hg'
    rw [settled_iff hgr.inv, ← settled_iff hgr'.inv, h1]
    rfl

end Verif.Stream
