import Verif.Proofs.StreamDesk5
import Verif.Proofs.StreamUnlimited

/-!
# Lemmas about streams as one sequential object: the background, and all acts together
-/

namespace Verif.Rpc

open Verif Verif.Wire Verif.Sdk
open Verif.Stream (Topic GErr Query Msg FetchOp SCmd View Rel GRel Fate)

variable {E I : Type} {env : Env} {bg : I → Option (Str × Stream.Ev)} {A w z : List (Act I)} {D : Library}

/-- A topic created with both limits zero. -/
theorem new_limits {o : StreamOpts} (h : (o.retention == some (some 0, some 0)) = true) : (topicCfg env.sys o).retention = ⟨none, none⟩ := by
  have := eq_of_beq h
  simp [topicCfg, this, retentionLimit]

/-! ### The background -/

/-- Nothing happens that can be noticed. -/
theorem note_idle {ev : Stream.Ev} (hb : inBackground ev = true) (hn : noticed ev = false) {out : Stream.Out} (ho : fetchResult out = none) (L : Ledger) :
    L.note env (ev, out) = L := by
  cases ev <;> first | rfl | (cases hb; done) | (cases hn; done) | (cases out <;> first | rfl | cases ho)

theorem Streamed.goes_tick (ht : Streamed env bg A) {x : I} (hs : A = w ++ .ticked x :: z) (hf : ∀ m, Fit env bg w D m) :
    Goes env bg w D (.ticked x) := by
  have nd : ∀ m, ¬ dropsTopic m (.ticked x : Act I) := by rintro m ⟨_, _, _, he⟩; cases he
  have nc : ∀ m, D m = none → ∀ l o now r, (.ticked x : Act I) ≠ .did l (.sCreate m o) now r := fun _ _ _ _ _ _ he => by cases he
  cases hx : bg x with
  | none =>
    refine ⟨D, .idle x (fun n ev L h => by rw [hx] at h; cases h), fun m => (hf m).frame rfl (fun t _ => ?_) (nd m) (nc m)⟩
    simp [actSteps, hx]
  | some y =>
    obtain ⟨n, ev⟩ := y
    cases hL : D n with
    | none =>
      refine ⟨D, .idle x (fun n' ev' L h h' => by rw [hx] at h; injection h with h; injection h with h1 h2; subst h1; rw [hL] at h'; cases h'), fun m =>
        (hf m).frame rfl (fun t hm => ?_) (nd m) (nc m)⟩
      have : n ≠ m := by
        rintro rfl
        rw [(hf n).absent hL] at hm
        cases hm
      simp [actSteps, hx, this]
    | some L =>
      obtain ⟨u, o, v, hb, hw⟩ := (hf n).present hL
      have others : ∀ (D' : Library) m, m ≠ n → D' m = D m → Fit env bg (w ++ [.ticked x]) D' m := by
        intro D' m hm hD
        refine (hf m).frame hD (fun t _ => ?_) (nd m) (nc m)
        simp [actSteps, hx, Ne.symm hm]
      have stays : (∀ n' ev' L', bg x = some (n', ev') → D n' = some L' → noticed ev' = false) → noticed ev = false := fun h => h n ev L hx hL
      by_cases hr : fetchResult (((newTopic env o).run env.crc (hist env bg n u o v)).step env.crc ev).2 = none
      · -- the step happens
        have hact : actSteps env bg n (w.countP isStreamAct) ((newTopic env o).run env.crc (hist env bg n u o v)) (.ticked x) = [ev] := by
          simp [actSteps, hx, hr]
        have hst := hw.step ev
        have go : ∀ D' L', LStep env bg D (.ticked x) D' → D' n = some L' → (∀ m, m ≠ n → D' m = D m) →
            Written env o (hist env bg n u o v ++ [ev]) L' → Goes env bg w D (.ticked x) := by
          intro D' L' h1 h2 h3 h4
          refine ⟨D', h1, fun m => ?_⟩
          by_cases hm : m = n
          · subst hm; exact Fit.go hb h2 (nd m) (by rw [hact]; exact h4)
          · exact others D' m hm (h3 m hm)
        have go' : ∀ L', LStep env bg D (.ticked x) (D.set n (some L')) → Written env o (hist env bg n u o v ++ [ev]) L' → Goes env bg w D (.ticked x) :=
          fun L' h1 h2 => go _ L' h1 (lib_same D n _) (fun m hm => lib_other D _ hm) h2
        by_cases hn : noticed ev = false
        · rw [note_idle (ht.tasks x n ev hx) hn hr] at hst
          exact go D L (.idle x (fun n' ev' _ h _ => by rw [hx] at h; injection h with h; injection h with _ h; rw [← h]; exact hn)) hL (fun _ _ => rfl) hst
        · cases ev with
          | disconnect conn order => exact go' _ (.closed x n conn order L hx hL) hst
          | tick now order => exact go' _ (.late x n now order L hx hL) hst
          | retainDone =>
            cases hret : ((newTopic env o).run env.crc (hist env bg n u o v)).retain with
            | outcome head =>
              have hout : (((newTopic env o).run env.crc (hist env bg n u o v)).step env.crc .retainDone).2 =
                  .retained (((newTopic env o).run env.crc (hist env bg n u o v)).step env.crc .retainDone).1.log.head := by
                simp only [Topic.step, hret]
              have hi : Stream.TInv ((newTopic env o).run env.crc (hist env bg n u o v)) := (ht.rel ⟨_, hs.symm⟩ hb []).elim fun _ h => h.2.1
              have hi' := (hi.step env.crc .retainDone).log
              obtain ⟨J, h1, _⟩ := ht.rel ⟨_, hs.symm⟩ hb []
              have hnext : (((newTopic env o).run env.crc (hist env bg n u o v)).step env.crc .retainDone).1.log.next = L.log.length + 1 := by
                rw [← (hw.agree []).next, h1.next]
                have := Stream.run_next env.crc ((newTopic env o).run env.crc (hist env bg n u o v)) [.retainDone]
                simpa [Topic.run, Stream.published] using this
              rw [hout] at hst
              refine go' _ (.removes x n L _ hx hL ⟨hi'.head1, by rw [← hnext]; exact hi'.headNext⟩ (fun hk => ?_)) hst
              rw [hw.keeps] at hk
              exact ((Stream.Whole.fresh (new_limits hk)).run (hist env bg n u o v) |>.step .retainDone).head
            | _ =>
              have hout : (((newTopic env o).run env.crc (hist env bg n u o v)).step env.crc .retainDone).2 = .none := by simp only [Topic.step, hret]
              rw [hout] at hst
              exact go D L (.keeps x n hx) hL (fun _ _ => rfl) hst
          | _ => exact absurd rfl hn
      · -- the step would have answered a fetch
        have hact : actSteps env bg n (w.countP isStreamAct) ((newTopic env o).run env.crc (hist env bg n u o v)) (.ticked x) = [] := by
          simp [actSteps, hx, hr]
        have hn : noticed ev = false := by
          cases ev with
          | disconnect conn order => exact absurd rfl hr
          | tick now order => exact absurd rfl hr
          | retainDone => exact absurd (by simp only [Topic.step]; split <;> rfl) hr
          | _ => rfl
        refine ⟨D, .idle x (fun n' ev' _ h _ => by rw [hx] at h; injection h with h; injection h with _ h; rw [← h]; exact hn), fun m => ?_⟩
        by_cases hm : m = n
        · subst hm; exact Fit.go hb hL (nd m) (by rw [hact, List.append_nil]; exact hw)
        · exact others D m hm rfl

/-! ### All acts -/

theorem mhas_of {m : List (Str × Topic)} {k : Str} {t : Topic} (h : mget m k = some t) : mhas m k = true := by simp [mhas, h]

theorem mhas_not {m : List (Str × Topic)} {k : Str} (h : mget m k = none) : mhas m k = false := by simp [mhas, h]

theorem Streamed.goes (ht : Streamed env bg A) {a : Act I} (hs : A = w ++ a :: z) (hf : ∀ m, Fit env bg w D m) : Goes env bg w D a := by
  cases a with
  | ticked x => exact ht.goes_tick hs hf
  | did l cmd now r =>
    -- commands that do not touch the topics
    have calm : LStep env bg D (.did l cmd now r) D → onTopic cmd = none → (∀ m o, cmd ≠ .sCreate m o ∨ D m ≠ none) → (∀ m, cmd ≠ .sDelete m) →
        Goes env bg w D (.did l cmd now r) := by
      intro h1 h2 h3 h4
      refine ⟨D, h1, fun m => (hf m).frame rfl (fun t _ => act_other (by rw [h2]; simp)) ?_ ?_⟩
      · rintro ⟨_, _, _, he⟩
        injection he with _ he
        exact h4 m he
      · intro hn l' o' now' r' he
        injection he with _ he
        rcases h3 m o' with h | h
        · exact h he
        · exact h hn
    by_cases hq : isStream cmd = true
    · have hr := (ht.exec _ _ _ _ _ _ hs hq).1
      cases hn : onTopic cmd with
      | some n =>
        cases hL : D n with
        | none =>
          have := ht.missing hs hq hn ((hf n).absent hL)
          subst this
          refine ⟨D, .missing l now n cmd hn hL, fun m => ?_⟩
          by_cases hm : m = n
          · subst hm
            refine (hf m).frame rfl (fun t h => by rw [(hf m).absent hL] at h; cases h) ?_ ?_
            · rintro ⟨_, _, _, he⟩
              injection he with _ he
              subst he
              cases hn
            · intro _ l' o' now' r' he
              injection he with _ he
              subst he
              cases hn
          · refine (hf m).frame rfl (fun t _ => act_other (by rw [hn]; simpa using Ne.symm hm)) ?_ ?_
            · rintro ⟨_, _, _, he⟩
              injection he with _ he
              subst he
              cases hn
            · intro _ l' o' now' r' he
              injection he with _ he
              subst he
              cases hn
        | some L =>
          obtain ⟨u, o, v, hb, hw⟩ := (hf n).present hL
          cases cmd with
          | sPub m pl => injection hn with hn; subst hn; exact ht.goes_pub hs hf hL hb hw
          | sFetch m g c gen lim wt => injection hn with hn; subst hn; exact ht.goes_fetch hs hf hL hb hw
          | sJoin g m => injection hn with hn; subst hn; exact ht.goes_join hs hf hL hb hw
          | sAck m g c gen s => injection hn with hn; subst hn; exact ht.goes_ack hs hf hL hb hw
          | sSeek m g b => injection hn with hn; subst hn; exact ht.goes_seek hs hf hL hb hw
          | sLeave m g c gen => injection hn with hn; subst hn; exact ht.goes_leave hs hf hL hb hw
          | _ => cases hn
      | none =>
        cases cmd with
        | sCreate n o =>
          simp only [streamExec] at hr
          subst hr
          cases hL : D n with
          | some L =>
            refine calm (.again l now n o (by rw [hL]; simp)) rfl ?_ (fun m h => by cases h)
            intro m o'
            by_cases hm : m = n
            · subst hm; right; rw [hL]; simp
            · left; intro he; injection he with he; exact hm he.symm
          | none =>
            refine ⟨_, .create l now n o hL, fun m => ?_⟩
            by_cases hm : m = n
            · subst hm
              right
              refine ⟨.empty o, w, o, [], lib_same D m _, ⟨⟨l, now, _, rfl⟩, (hf m).absent hL, fun a ha => by cases ha⟩, Written.start env o⟩
            · refine (hf m).frame (lib_other D _ hm) (fun t _ => act_other (by simp [onTopic])) ?_ ?_
              · rintro ⟨_, _, _, he⟩; cases he
              · intro _ l' o' now' r' he
                injection he with _ he
                injection he with he
                exact hm he.symm
        | sDelete n =>
          simp only [streamExec] at hr
          subst hr
          refine ⟨_, .delete l now n, fun m => ?_⟩
          by_cases hm : m = n
          · subst hm
            left
            refine ⟨lib_same D m _, ?_⟩
            rw [after_snoc]
            simp only [Streams.act, isStream, if_true, streamExec, mget_mdel]
          · refine (hf m).frame (lib_other D _ hm) (fun t _ => act_other (by simp [onTopic])) ?_ ?_
            · rintro ⟨_, _, _, he⟩
              injection he with _ he
              injection he with he
              exact hm he.symm
            · intro _ l' o' now' r' he
              cases he
        | sExists n =>
          simp only [streamExec] at hr
          cases hL : D n with
          | none =>
            rw [mhas_not ((hf n).absent hL), Bool.false_or] at hr
            split at hr
            · next hfd =>
              subst hr
              exact calm (.stray l now n _ hfd) rfl (fun m o => .inl (fun h => by cases h)) (fun m h => by cases h)
            subst hr
            exact calm (.absent l now n hL) rfl (fun m o => .inl (fun h => by cases h)) (fun m h => by cases h)
          | some L =>
            obtain ⟨u, o, v, hb, _⟩ := (hf n).present hL
            rw [mhas_of hb.now, Bool.true_or] at hr
            subst hr
            exact calm (.present l now n (by rw [hL]; simp)) rfl (fun m o => .inl (fun h => by cases h)) (fun m h => by cases h)
        | sPub => cases hn
        | sFetch => cases hn
        | sJoin => cases hn
        | sAck => cases hn
        | sSeek => cases hn
        | sLeave => cases hn
        | _ => cases hq
    · have hq' : isStream cmd = false := by simpa using hq
      refine calm (.other l now cmd r hq') ?_ ?_ ?_
      · cases cmd <;> first | rfl | cases hq'
      · intro m o; left; rintro rfl; cases hq'
      · rintro m rfl; cases hq'

/-- The acts of a run are one run of the specification. -/
theorem Streamed.library (ht : Streamed env bg A) : ∀ w : List (Act I), w <+: A → ∃ D, LRun env bg w D ∧ ∀ m, Fit env bg w D m := by
  intro w
  induction w using Sdk.snoc_ind with
  | h0 => exact fun _ => ⟨_, .start, fun m => .inl ⟨rfl, rfl⟩⟩
  | h1 w a ih =>
    rintro ⟨z, hz⟩
    have hs : A = w ++ a :: z := by rw [← hz]; simp
    obtain ⟨D, h1, h2⟩ := ih ⟨a :: z, hs.symm⟩
    obtain ⟨D', h3, h4⟩ := ht.goes hs h2
    exact ⟨D', h1.step h3, h4⟩

end Verif.Rpc
