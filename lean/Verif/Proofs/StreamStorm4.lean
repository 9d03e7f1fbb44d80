import Verif.Proofs.StreamStorm3

/-!
# Lemmas about the streams behind the network across crashes: groups
-/

namespace Verif.Stream

variable {crc : Bytes → Nat} {lossy : Bytes → Str} {name : Str} {t : Topic}

/-- What counts as done in the file and in all its versions to come counts as done after any number of commands. -/
theorem coverage_of {s : Nat} (h1 : Covers s (progress crc lossy name t.disk.groups))
    (h2 : ∀ d, SCmd.save d ∈ t.chan → Covers s (progress crc lossy name (some (groupsFile crc d)))) : Coverage crc lossy name s 0 t := by
  have key : ∀ (cs : List SCmd) (o : Option Nat), Covers s o → (∀ d, SCmd.save d ∈ cs → Covers s (progress crc lossy name (some (groupsFile crc d)))) →
      Covers s (latest crc lossy name o cs) := by
    intro cs
    induction cs with
    | nil => intro o h _; exact h
    | cons c cs ih =>
      intro o h hd
      have hd' : ∀ d, SCmd.save d ∈ cs → Covers s (progress crc lossy name (some (groupsFile crc d))) := fun d hm => hd d (List.mem_cons_of_mem _ hm)
      cases c with
      | save d => exact ih _ (hd d List.mem_cons_self) hd'
      | _ => exact ih _ h hd'
  intro j _
  exact key _ _ h1 (fun d hd => h2 d (List.mem_of_mem_take hd))

end Verif.Stream

namespace Verif.Rpc

open Verif Verif.Wire Verif.Sdk
open Verif.Stream (Topic GErr Query Msg View)

variable {E I : Type} {env : Env} {lossy : Bytes → Str} {bg : I → Option Job}
variable {n g : Str} {A u v w w₁ w₂ : List (Act I)} {o : StreamOpts} {x : Era}

/-- What the observer of group `g` knows. -/
def Era.view (env : Env) (g : Str) (x : Era) : View := Stream.viewAfter env.crc x.start g x.steps

/-- Induction over the steps of an act. -/
theorem Weathered.steps (ht : Weathered env lossy bg A) {a : Act I} (h : Current env lossy bg n o w v x)
    (h' : Current env lossy bg n o (w ++ [a]) (v ++ [a]) (x.on env bg n w a)) (P : List Stream.Ev → View → Prop) (h0 : P x.steps (x.view env g))
    (hP : ∀ p e q, actSteps env (stepOf bg) n (w.countP isStreamAct) (x.topic env) a = p ++ e :: q →
      P (x.steps ++ p) (Stream.viewAfter env.crc x.start g (x.steps ++ p)) →
      Stream.Effect x.start.cfg.maxDeliveries x.start.cfg.ackWait g (Stream.viewAfter env.crc x.start g (x.steps ++ p))
        (e, ((x.start.run env.crc (x.steps ++ p)).step env.crc e).2) (Stream.viewAfter env.crc x.start g (x.steps ++ p ++ [e])) →
      P (x.steps ++ p ++ [e]) (Stream.viewAfter env.crc x.start g (x.steps ++ p ++ [e]))) :
    ∀ p q, actSteps env (stepOf bg) n (w.countP isStreamAct) (x.topic env) a = p ++ q → P (x.steps ++ p) (Stream.viewAfter env.crc x.start g (x.steps ++ p)) := by
  intro p
  induction p using Sdk.snoc_ind with
  | h0 => intro q _; rw [List.append_nil]; exact h0
  | h1 p e ih =>
    intro q hq
    rw [← List.append_assoc]
    have hq' : actSteps env (stepOf bg) n (w.countP isStreamAct) (x.topic env) a = p ++ e :: q := by rw [hq]; simp
    refine hP p e q hq' (ih (e :: q) hq') (Stream.Started.effect (h.started ht.ok.deliveries) g (x.steps ++ p) e ?_)
    have hn := h'.nodup g
    have : (x.on env bg n w a).steps = (x.steps ++ p) ++ e :: q := by simp [Era.on, hq']
    rw [this] at hn
    exact Stream.joinIds_prefix hn

/-- The ids of a prefix of the history are different. -/
theorem Current.nodup_part {a : Act I} (h' : Current env lossy bg n o (w ++ [a]) (v ++ [a]) (x.on env bg n w a)) {p q : List Stream.Ev}
    (hq : actSteps env (stepOf bg) n (w.countP isStreamAct) (x.topic env) a = p ++ q) : (Stream.joinIds g (x.steps ++ p)).Nodup := by
  have hn := h'.nodup g
  have : (x.on env bg n w a).steps = (x.steps ++ p) ++ q := by simp [Era.on, hq]
  rw [this] at hn
  exact Stream.joinIds_prefix hn

/-- What a step of an act delivers, the act hands out. -/
theorem Weathered.hands (ht : Weathered env lossy bg A) {a : Act I} (hs : A = w₁ ++ a :: w₂) (h : Current env lossy bg n o w₁ v x) {p q : List Stream.Ev} {e : Stream.Ev}
    (hst : actSteps env (stepOf bg) n (w₁.countP isStreamAct) (x.topic env) a = p ++ e :: q) {s : Nat}
    (hg : s ∈ (((x.start.run env.crc (x.steps ++ p)).step env.crc e).2).gives g) : givesOut n g s a := by
  cases ho : ((x.start.run env.crc (x.steps ++ p)).step env.crc e).2 with
  | fetched qu res =>
    rw [ho] at hg
    cases res with
    | error => cases hg
    | ok ms =>
      simp only [Stream.Out.gives] at hg
      split at hg
      · next hq =>
        subst hq
        obtain ⟨⟨l, w, now, r, ha, hr, hw⟩, _⟩ := ht.wired hs h hst ho
        refine ⟨l, qu.consumer, qu.gen, qu.limit, w, now, r, ha, ?_⟩
        simp only [fetchedSeqs, hw, triples, List.map_map]
        exact hg
      · cases hg
  | _ => rw [ho] at hg; cases hg

/-- A fetch delivers what it hands out. -/
theorem Weathered.delivers (ht : Weathered env lossy bg A) {l : Nat} {c : Str} {gen lim w now : Nat} {r : Option Response}
    (hs : A = w₁ ++ .did l (.sFetch n g c gen lim w) now r :: w₂) {s : Nat} (hm : s ∈ fetchedSeqs r) (h : Current env lossy bg n o w₁ v x) :
    ∃ p e q, actSteps env (stepOf bg) n (w₁.countP isStreamAct) (x.topic env) (.did l (.sFetch n g c gen lim w) now r) = p ++ e :: q ∧
      s ∈ Stream.given env.crc x.start g (x.steps ++ p) e := by
  obtain ⟨p, e, q, ms, h1, h2, h4, h5, h6⟩ := ht.fetched hs (seqs_ne hm) h
  simp only [fetchedSeqs, h5, triples, List.map_map] at hm
  obtain ⟨m, hm1, hm2⟩ := List.mem_map.1 hm
  refine ⟨p, e, q, h1, ?_⟩
  unfold Stream.given
  rw [h2]
  simp only [Stream.Out.gives, if_true]
  exact List.mem_map.2 ⟨m, hm1, hm2⟩

/-! ### Saved progress -/

/-- Everything up to the saved progress of the group is settled. -/
theorem Current.savedOk {a : Act I} (ht : Weathered env lossy bg A) (h : Current env lossy bg n o w v x)
    (h' : Current env lossy bg n o (w ++ [a]) (v ++ [a]) (x.on env bg n w a)) (hns : ¬ seeks n g a)
    (hq : Stream.SavedOk env.crc lossy g (x.topic env) (x.view env g)) :
    Stream.SavedOk env.crc lossy g ((x.on env bg n w a).topic env) ((x.on env bg n w a).view env g) := by
  refine ht.steps h h' (fun es v => Stream.SavedOk env.crc lossy g (x.start.run env.crc es) v) hq ?_ _ [] (by simp)
  intro p e q hst ih heff
  obtain ⟨J, hr, _⟩ := (h.started ht.ok.deliveries).reach g (x.steps ++ p) (h'.nodup_part hst)
  rw [Stream.run_append env.crc (x.steps ++ p)]
  refine ih.step hr (Stream.Named.run env.crc (x.steps ++ p) x.start h.named ?_) heff ?_
  · intro e' he' g' hg'
    refine h'.creates e' ?_ g' hg'
    have : (x.on env bg n w a).steps = (x.steps ++ p) ++ e :: q := by simp [Era.on, hst]
    rw [this]
    exact List.mem_append.2 (.inl he')
  · rintro b rfl
    exact noseek_act ht.tasks hns b (by rw [hst]; simp)

theorem savedOk_built {cfg : Stream.Cfg} {d : Stream.Disk} :
    Stream.SavedOk env.crc lossy g (Topic.build env.crc cfg lossy d) (View.start (Topic.build env.crc cfg lossy d) g) := by
  refine ⟨fun f hf => ?_, fun d' hd' => ?_⟩
  · have hf' : Stream.progress env.crc lossy g d.groups = some f := hf
    obtain ⟨h1, h2⟩ := Stream.build_view (cfg := cfg) hf'
    exact ⟨h1, fun s hs => by rw [h2 s hs]; rfl⟩
  · cases hd'

theorem Weathered.saved (ht : Weathered env lossy bg A) (hw : w <+: A) (h : Risen env lossy bg n w u o v) (hv : ∀ a ∈ v, ¬ seeks n g a) :
    ∃ x, Current env lossy bg n o w v x ∧ Stream.SavedOk env.crc lossy g (x.topic env) (x.view env g) := by
  refine ht.ind n u o (fun _ _ x => Stream.SavedOk env.crc lossy g (x.topic env) (x.view env g)) ?_ ?_ ?_ hw h
  · intro w _ _
    exact savedOk_built (cfg := topicCfg env.sys o) (d := { segs := [], writers := [], groups := none })
  · intro w v' a w₂ x _ ha _ _ hc hc' hq
    exact hc.savedOk ht hc' (hv a ha) hq
  · intro w v a w₂ x base msgs _ _ _ _ _ _ _
    exact savedOk_built

/-! ### Nothing is skipped -/

/-- Every message that is not new to the group was handed out, or is gone. -/
def Told' (env : Env) (n g : Str) (v : List (Act I)) (x : Era) : Prop :=
  (x.view env g).known = true → ∀ s, 1 ≤ s → (x.view env g).fate s ≠ .fresh → (∃ a ∈ v, givesOut n g s a) ∨ s < (x.topic env).log.head

theorem Told'.go (ht : Weathered env lossy bg A) {a : Act I} (hs : A = w ++ a :: w₂) (h : Current env lossy bg n o w v x)
    (h' : Current env lossy bg n o (w ++ [a]) (v ++ [a]) (x.on env bg n w a)) (hns : ¬ seeks n g a) (hq : Told' env n g v x) :
    Told' env n g (v ++ [a]) (x.on env bg n w a) := by
  refine ht.steps h h' (fun es y => y.known = true → ∀ s, 1 ≤ s → y.fate s ≠ .fresh →
    (∃ b ∈ v ++ [a], givesOut n g s b) ∨ s < (x.start.run env.crc es).log.head) ?_ ?_ _ [] (by simp)
  · intro hk s h1 hf
    rcases hq hk s h1 hf with ⟨b, hb, hg⟩ | hl
    · exact .inl ⟨b, List.mem_append.2 (.inl hb), hg⟩
    · exact .inr hl
  · intro p e q hst ih heff hk s h1 hf
    have hord : Stream.Orderly x.since x.start (x.steps ++ p ++ [e]) := by
      have ho := h'.orderly
      have : (x.on env bg n w a).steps = (x.steps ++ p ++ [e]) ++ q := by simp [Era.on, hst]
      rw [this] at ho
      exact ho.prefix
    have hmono := (h.starts.mono (x.steps ++ p) [e] hord).1
    have hseek : ∀ b, e ≠ .seek g b := by
      rintro b rfl
      exact noseek_act ht.tasks hns b (by rw [hst]; simp)
    have hnd1 : (Stream.joinIds g (x.steps ++ p)).Nodup := h'.nodup_part hst
    have hnd2 : (Stream.joinIds g (x.steps ++ p ++ [e])).Nodup := by
      have := h'.nodup_part (g := g) (p := p ++ [e]) (q := q) (by rw [hst]; simp)
      rwa [← List.append_assoc] at this
    obtain ⟨J, hr, _⟩ := (h.started ht.ok.deliveries).reach g (x.steps ++ p) hnd1
    obtain ⟨J', hr', _⟩ := (h.started ht.ok.deliveries).reach g (x.steps ++ p ++ [e]) hnd2
    by_cases hg : s ∈ (((x.start.run env.crc (x.steps ++ p)).step env.crc e).2).gives g
    · exact .inl ⟨a, by simp, ht.hands hs h hst hg⟩
    generalize hV : Stream.viewAfter env.crc x.start g (x.steps ++ p) = V at *
    cases hk0 : V.known with
    | true =>
      have old : V.fate s ≠ .fresh → (∃ b ∈ v ++ [a], givesOut n g s b) ∨ s < (x.start.run env.crc (x.steps ++ p ++ [e])).log.head := by
        intro hf0
        rcases ih hk0 s h1 hf0 with h | h
        · exact .inl h
        · exact .inr (Nat.lt_of_lt_of_le h hmono)
      rcases heff.keeps hseek (.inl hk0) hg with k | ⟨_, _, _, _, ⟨_, _, _, k⟩, _⟩ | ⟨_, _, _, k, _⟩ | ⟨head, he, ho, hlt, _⟩
      · exact old (by rw [← k]; exact hf)
      · exact old (by rw [k]; simp)
      · exact old (by rw [k]; simp)
      · right
        rw [← hr'.head, Stream.viewAfter_snoc, hV, he]
        rw [he] at ho
        rw [ho]
        simpa [View.step] using hlt
    | false =>
      by_cases hj : ∃ conn c, e = .join g conn c
      · obtain ⟨conn, c, rfl⟩ := hj
        right
        refine Nat.lt_of_lt_of_le ?_ hmono
        cases heff with
        | other _ _ _ _ _ _ _ _ _ hnew _ =>
          obtain ⟨_, h2⟩ := hnew hk0 conn c rfl
          have h3 := h2 s
          rw [← hr.head]
          apply Nat.lt_of_not_le
          intro hle
          rw [if_pos hle] at h3
          exact hf h3
      · rw [heff.unknown hk0 hseek (fun conn c he => hj ⟨conn, c, he⟩)] at hk
        cases hk

theorem Told'.fall {base : Nat} {msgs : List Msg} {a : Act I} {w' v' : List (Act I)} (h' : Current env lossy bg n o w' v' (x.crashed env lossy base msgs))
    (hh : (x.topic env).log.head ≤ base) (hq : Told' env n g v x) (hsv : Stream.SavedOk env.crc lossy g (x.topic env) (x.view env g)) :
    Told' env n g (v ++ [a]) (x.crashed env lossy base msgs) := by
  have hhead := h'.built_head
  intro hk s h1 hf
  have hgr := Stream.build_group env.crc lossy g (x.topic env).cfg { (x.topic env).disk with writers := [] }
  have hview : (x.crashed env lossy base msgs).view env g =
    View.start (Topic.build env.crc (x.topic env).cfg lossy { (x.topic env).disk with writers := [] }) g := rfl
  have htop : (x.crashed env lossy base msgs).topic env = Topic.build env.crc (x.topic env).cfg lossy { (x.topic env).disk with writers := [] } := rfl
  rw [htop] at hhead ⊢
  rw [hview] at hk hf
  generalize hT : Topic.build env.crc (x.topic env).cfg lossy { (x.topic env).disk with writers := [] } = T at *
  cases hp : Stream.progress env.crc lossy g (x.topic env).disk.groups with
  | none =>
    simp only at hgr
    rw [hp] at hgr
    simp [View.start, mhas, hgr] at hk
  | some f =>
    simp only at hgr
    rw [hp] at hgr
    simp only [View.start, hgr, Option.map_some] at hf
    have hle : s ≤ (Stream.Group.restore f T.log.head (x.topic env).cfg.maxPending (x.topic env).cfg.ackWait (x.topic env).cfg.maxDeliveries).floor := by
      apply Nat.le_of_not_lt
      intro hlt
      rw [if_pos hlt] at hf
      exact hf rfl
    simp only [Stream.Group.restore] at hle
    by_cases hsf : s ≤ f
    · obtain ⟨k1, k2⟩ := hsv.file f hp
      have hfr : (x.view env g).fate s ≠ .fresh := by
        intro h0
        have := k2 s hsf
        rw [h0] at this
        cases this
      rcases hq k1 s h1 hfr with ⟨b, hb, hg⟩ | hl
      · exact .inl ⟨b, List.mem_append.2 (.inl hb), hg⟩
      · right; omega
    · right; omega

theorem Weathered.told (ht : Weathered env lossy bg A) (hw : w <+: A) (h : Risen env lossy bg n w u o v) (hv : ∀ a ∈ v, ¬ seeks n g a) :
    ∃ x, Current env lossy bg n o w v x ∧ Stream.SavedOk env.crc lossy g (x.topic env) (x.view env g) ∧ Told' env n g v x := by
  refine ht.ind n u o (fun _ v x => Stream.SavedOk env.crc lossy g (x.topic env) (x.view env g) ∧ Told' env n g v x) ?_ ?_ ?_ hw h
  · intro w _ _
    refine ⟨savedOk_built (cfg := topicCfg env.sys o) (d := { segs := [], writers := [], groups := none }), ?_⟩
    intro hk
    cases hk
  · intro w v' a w₂ x hs ha _ _ hc hc' hq
    exact ⟨hc.savedOk ht hc' (hv a ha) hq.1, hq.2.go ht hs hc hc' (hv a ha)⟩
  · intro w v a w₂ x base msgs _ _ _ hc' hh _ hq
    exact ⟨savedOk_built, hq.2.fall hc' hh hq.1⟩

/-- The life of a topic begins after its last deletion. -/
theorem Risen.since (h : Risen env lossy bg n (w₁ ++ w₂) u o v) (hx : Anew n w₁) : ∃ c l now r, u = w₁ ++ c ∧ w₂ = c ++ .did l (.sCreate n o) now r :: v := by
  obtain ⟨l, now, r, hs⟩ := h.split
  rcases List.append_eq_append_iff.1 hs with ⟨c, h1, h2⟩ | ⟨c, h1, h2⟩
  · exact ⟨c, l, now, r, h1, h2⟩
  · cases c with
    | nil => exact ⟨[], l, now, r, by simpa using h1.symm, by simpa using h2.symm⟩
    | cons x c =>
      exfalso
      injection h2 with h2 h3
      rcases hx with rfl | ⟨y, a, rfl, ha⟩
      · cases u <;> cases h1
      · have : a ∈ x :: c := by
          have hl := congrArg List.getLast? h1
          rw [List.getLast?_concat, List.getLast?_append] at hl
          have hgn : (x :: c).getLast? ≠ none := by simp
          cases hg : (x :: c).getLast? with
          | none => exact absurd hg hgn
          | some b =>
            rw [hg, Option.some_or] at hl
            injection hl with hl
            subst hl
            exact List.mem_of_getLast? hg
        rcases List.mem_cons.1 this with rfl | hc
        · obtain ⟨_, _, _, rfl⟩ := ha; cases h2
        · exact h.kept a (by rw [h3]; simp [hc]) ha

theorem fetch_not_break {l : Nat} {c : Str} {gen lim k now : Nat} {r : Option Response} :
    ¬ breaks bg (Act.did (I := I) l (.sFetch n g c gen lim k) now r) := by
  rintro ⟨_, he, _⟩; cases he

/-- No message is left out. -/
theorem Weathered.no_gap (ht : Weathered env lossy bg A) {x y z : List (Act I)} {l : Nat} {c : Str} {gen lim k now : Nat} {r : Option Response}
    (hs : A = x ++ y ++ .did l (.sFetch n g c gen lim k) now r :: z) {s s' : Nat} (hm : s ∈ fetchedSeqs r) (hlt : s' < s) (h1 : 1 ≤ s')
    (hx : Anew n x) (hv : ∀ a ∈ y, ¬ seeks n g a) :
    (∃ a ∈ y ++ [.did l (.sFetch n g c gen lim k) now r], givesOut n g s' a) ∨
      s' < oldest (Streams.lived env lossy bg (x ++ y ++ [.did l (.sFetch n g c gen lim k) now r])) n := by
  obtain ⟨u, o, v, h⟩ := ht.fetch_risen hs (seqs_ne hm)
  obtain ⟨c0, l0, now0, r0, hu, hy⟩ := h.since hx
  have hvy : ∀ a ∈ v, a ∈ y := fun a ha => by rw [hy]; simp [ha]
  obtain ⟨e, hc, _, hq⟩ := ht.told (g := g) ⟨_, hs.symm⟩ h (fun a ha => hv a (hvy a ha))
  have hc' := ht.goes hs fetch_not_break fetch_not_drop hc
  have hq' := hq.go ht hs hc hc' fetch_not_seek
  obtain ⟨p, ev, q, hst, hgv⟩ := ht.delivers hs hm hc
  have hsteps : (e.on env bg n (x ++ y) (.did l (.sFetch n g c gen lim k) now r)).steps = (e.steps ++ p) ++ ev :: q := by
    simp only [Era.on]
    rw [hst, List.append_assoc]
  have hns : Stream.NoSeek g q := by
    intro b hb
    exact noseek_act ht.tasks (fetch_not_seek (n := n) (g := g)) b (by rw [hst]; simp [hb])
  have hpos := sinceSeek_of hgv hns
  rw [← hsteps] at hpos
  have hfresh := (Stream.C42_nothing_skipped (hc.started ht.ok.deliveries) g _ (hc'.nodup g) s s' hlt hpos).1
  have hknown : ((e.on env bg n (x ++ y) (.did l (.sFetch n g c gen lim k) now r)).view env g).known = true := by
    have hn := hc'.nodup g
    unfold Era.view
    rw [hsteps] at hn ⊢
    refine Stream.hist_ind (hc.started ht.ok.deliveries) (fun _ v => v.known = true) (fun _ => True) ?_ (ev :: q) (e.steps ++ p) hn (fun _ _ => trivial) ?_
    · intro es e' v' _ _ hk heff
      exact heff.known hk
    · have heff := Stream.Started.effect (hc.started ht.ok.deliveries) g (e.steps ++ p) ev (by
        exact hc'.nodup_part hst)
      exact (heff.gives_legal hgv).2.2.2
  rcases hq' hknown s' h1 hfresh with ⟨a, ha, hg⟩ | hl
  · left
    refine ⟨a, ?_, hg⟩
    rcases List.mem_append.1 ha with ha | ha
    · exact List.mem_append.2 (.inl (hvy a ha))
    · exact List.mem_append.2 (.inr ha)
  · right
    unfold oldest
    rw [hc'.now]
    exact hl

/-! ### What is acknowledged stays acknowledged -/

/-- Everything up to `s` is done, for the group, for its file and for the files to come. -/
structure Closed (env : Env) (lossy : Bytes → Str) (g : Str) (s : Nat) (x : Era) : Prop where
  coverage : Stream.Coverage env.crc lossy g s 0 (x.topic env)
  saved : Stream.SavedOk env.crc lossy g (x.topic env) (x.view env g)
  known : (x.view env g).known = true
  done : ∀ s' ≤ s, ((x.view env g).fate s').settled = true

theorem Closed.steps (ht : Weathered env lossy bg A) {a : Act I} {s : Nat} (hpre : w ++ [a] <+: A) (h : Current env lossy bg n o w v x)
    (h' : Current env lossy bg n o (w ++ [a]) (v ++ [a]) (x.on env bg n w a)) (hns : ¬ seeks n g a) (hq : Closed env lossy g s x) :
    ∀ p q, actSteps env (stepOf bg) n (w.countP isStreamAct) (x.topic env) a = p ++ q →
      Stream.Coverage env.crc lossy g s 0 (x.start.run env.crc (x.steps ++ p)) ∧
      (Stream.viewAfter env.crc x.start g (x.steps ++ p)).known = true ∧
      ∀ s' ≤ s, ((Stream.viewAfter env.crc x.start g (x.steps ++ p)).fate s').settled = true := by
  refine ht.steps h h' (fun es v => Stream.Coverage env.crc lossy g s 0 (x.start.run env.crc es) ∧ v.known = true ∧ ∀ s' ≤ s, (v.fate s').settled = true)
    ⟨hq.coverage, hq.known, hq.done⟩ ?_
  rintro p e q hst ⟨i1, i2, i3⟩ heff
  have hseek : ∀ b, e ≠ .seek g b := by
    rintro b rfl
    exact noseek_act ht.tasks hns b (by rw [hst]; simp)
  refine ⟨?_, heff.known i2, fun s' hs' => heff.settled hseek i2 (i3 s' hs')⟩
  have hnd : (Stream.joinIds g (x.steps ++ p)).Nodup := h'.nodup_part hst
  have hall : (x.on env bg n w a).steps = (x.steps ++ p) ++ e :: q := by simp only [Era.on]; rw [hst, List.append_assoc]
  obtain ⟨J, hr, _⟩ := (h.started ht.ok.deliveries).reach g (x.steps ++ p) hnd
  have hmd : 1 ≤ x.start.cfg.maxDeliveries := by rw [h.cfg]; exact ht.ok.deliveries
  have hpub : Stream.published x.start.log.next (x.on env bg n w a).steps =
      Stream.published x.start.log.next (x.steps ++ p) ++ Stream.published (x.start.log.next + (Stream.published x.start.log.next (x.steps ++ p)).length) (e :: q) := by
    rw [hall, Stream.published_append]
  have hfits : ∀ m ∈ Stream.published x.start.log.next (x.steps ++ p), Stream.Fits m := by
    intro m hm
    refine h'.fits m (List.mem_append.2 (.inr ?_))
    have : m ∈ Stream.published x.start.log.next (x.on env bg n w a).steps := by rw [hpub]; simp [hm]
    exact this
  have hlt : (x.start.run env.crc (x.steps ++ p)).log.next ≤ 2 ^ 64 := by
    have hnx : ((x.on env bg n w a).topic env).log.next = x.start.log.next + (Stream.published x.start.log.next (x.on env bg n w a).steps).length :=
      Stream.run_next env.crc x.start _
    rw [hpub, List.length_append] at hnx
    rw [Stream.run_next]
    have h1 := h'.bound
    have h2 := ht.small.length
    have h3 : (v ++ [a]).countP (publishes n) ≤ (v ++ [a]).length := List.countP_le_length
    have h4 := h'.len
    obtain ⟨w₃, hw⟩ := hpre
    rw [← hw, List.length_append] at h2
    omega
  have hstep := i1.step hr (Stream.Named.run env.crc (x.steps ++ p) x.start h.named (fun e' he' g' hg' => h'.creates e' (by rw [hall]; exact List.mem_append.2 (.inl he')) g' hg'))
    i2 i3 (Stream.bounded h.starts hmd _ hnd hfits hlt i2) e
  rw [Stream.run_append env.crc (x.steps ++ p), Nat.zero_sub] at *
  exact hstep

theorem Closed.go (ht : Weathered env lossy bg A) {a : Act I} {s : Nat} (hpre : w ++ [a] <+: A) (h : Current env lossy bg n o w v x)
    (h' : Current env lossy bg n o (w ++ [a]) (v ++ [a]) (x.on env bg n w a)) (hns : ¬ seeks n g a) (hq : Closed env lossy g s x) :
    Closed env lossy g s (x.on env bg n w a) := by
  obtain ⟨h1, h2, h3⟩ := hq.steps ht hpre h h' hns _ [] (List.append_nil _).symm
  exact ⟨h1, h.savedOk ht h' hns hq.saved, h2, h3⟩

theorem Closed.fall {base : Nat} {msgs : List Msg} {s : Nat} (hq : Closed env lossy g s x) : Closed env lossy g s (x.crashed env lossy base msgs) := by
  obtain ⟨f, hf, hsf⟩ := hq.coverage 0 (Nat.le_refl _)
  have hf' : Stream.progress env.crc lossy g (x.topic env).disk.groups = some f := by simpa [Stream.latest] using hf
  obtain ⟨h1, h2⟩ := Stream.build_view (cfg := (x.topic env).cfg) (d := { (x.topic env).disk with writers := [] }) hf'
  refine ⟨Stream.coverage_of ⟨f, hf', hsf⟩ (fun d hd => by cases hd), savedOk_built, h1, fun s' hs' => ?_⟩
  have := h2 s' (Nat.le_trans hs' hsf)
  exact (congrArg Stream.Fate.settled this).trans rfl

theorem Preserved.closed {s : Nat} (h : Preserved env.crc lossy (Streams.lived env lossy bg w) n g s) (hc : Current env lossy bg n o w v x)
    (hsv : Stream.SavedOk env.crc lossy g (x.topic env) (x.view env g)) : Closed env lossy g s x := by
  obtain ⟨t, ht, ⟨b, hb, f, hf, hsf⟩, hd⟩ := h
  have hxt : t = x.topic env := by have := hc.now; rw [ht] at this; injection this
  subst hxt
  have hp : Stream.progress env.crc lossy g (x.topic env).disk.groups = some f := by rw [hb]; exact hf
  obtain ⟨k1, k2⟩ := hsv.file f hp
  exact ⟨Stream.coverage_of ⟨f, hp, hsf⟩ (fun d hm => hd d hm), hsv, k1, fun s' hs' => k2 s' (Nat.le_trans hs' hsf)⟩

/-- What the files count as done is not handed out again. -/
theorem Weathered.ack_final (ht : Weathered env lossy bg A) {x y y' z : List (Act I)} {l : Nat} {c : Str} {gen lim k now : Nat} {r : Option Response} {s s' : Nat}
    (hs : A = x ++ y ++ y' ++ .did l (.sFetch n g c gen lim k) now r :: z) (hx : Anew n x) (hv : ∀ a ∈ y ++ y', ¬ seeks n g a)
    (hd : ∀ a ∈ y', ¬ dropsTopic n a) (hp : Preserved env.crc lossy (Streams.lived env lossy bg (x ++ y)) n g s) (hle : s' ≤ s) :
    s' ∉ fetchedSeqs r := by
  intro hm
  obtain ⟨t, ht1, _⟩ := id hp
  obtain ⟨u, o, v, hr⟩ := life_risen ht1
  obtain ⟨c0, l0, now0, r0, hu, hy⟩ := hr.since hx
  obtain ⟨e0, hc0, hsv⟩ := ht.saved (g := g) ⟨y' ++ .did l (.sFetch n g c gen lim k) now r :: z, by rw [hs]; simp⟩ hr
    (fun a ha => hv a (List.mem_append.2 (.inl (by rw [hy]; simp [ha]))))
  obtain ⟨e, hc, hq⟩ := ht.follow n o (fun _ _ x => Closed env lossy g s x) hc0 (hp.closed hc0 hsv) y' _ hd hs
    (fun w v a w₂ x hA ha _ _ h h' hq => hq.go ht ⟨w₂, by rw [hA]; simp⟩ h h' (hv a (List.mem_append.2 (.inr ha))))
    (fun w v a w₂ x base msgs _ _ _ _ _ _ hq => hq.fall)
  have hc' := ht.goes hs fetch_not_break fetch_not_drop hc
  obtain ⟨p, ev, q, hst, hgv⟩ := ht.delivers hs hm hc
  obtain ⟨_, _, h3⟩ := hq.steps ht ⟨z, by rw [hs]; simp⟩ hc hc' fetch_not_seek p (ev :: q) hst
  have heff := Stream.Started.effect (hc.started ht.ok.deliveries) g (e.steps ++ p) ev (hc'.nodup_part hst)
  have h4 := h3 s' hle
  rcases (heff.gives_legal hgv).1 with h | ⟨k, h, _⟩ <;> rw [h] at h4 <;> cases h4

end Verif.Rpc
