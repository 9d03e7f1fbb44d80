import Verif.Spec.QueueManager
import Verif.Proofs.QueueCrash

namespace Verif.Queue

theorem dbFile_inj {a b : Str} : dbFile a = dbFile b ↔ a = b := List.append_left_inj _

theorem cfgFile_inj {a b : Str} : cfgFile a = cfgFile b ↔ a = b := List.append_left_inj _

theorem put_eq {α : Type} {files : List (Str × α)} {f : Str} {v : α} (h : (47 : UInt8) ∉ f) : put files f v = mset files f v := by
  simp [put, h]

theorem mget_put {α : Type} {files : List (Str × α)} {f g : Str} {v : α} :
    mget (put files f v) g = if (47 : UInt8) ∈ f then mget files g else if g = f then some v else mget files g := by
  unfold put
  by_cases h : (47 : UInt8) ∈ f <;> simp [h, mget_mset]

theorem mget_put_ne {α : Type} (files : List (Str × α)) {f g : Str} (v : α) (h : g ≠ f) : mget (put files f v) g = mget files g := by
  rw [mget_put]; simp [h]

theorem slash_dbFile {n : Str} (h : (47 : UInt8) ∉ n) : (47 : UInt8) ∉ dbFile n := by simp [dbFile, dotDb, h]

theorem slash_cfgFile {n : Str} (h : (47 : UInt8) ∉ n) : (47 : UInt8) ∉ cfgFile n := by simp [cfgFile, dotConfig, h]

theorem trimRev_plain : ∀ {r : Str}, (∀ t, r ≠ 98 :: 100 :: 46 :: t) → trimRev r = r := by
  intro r h
  match r with
  | [] => rfl
  | [_] => rfl
  | [_, _] => rfl
  | a :: b :: c :: t =>
    rw [trimRev, if_neg]
    rintro ⟨h1, h2, h3⟩
    exact h t (by rw [h1, h2, h3])

theorem trimDb_plain {n : Str} (h : plainName n) : trimDb n = n := by
  unfold trimDb
  rw [trimRev_plain, List.reverse_reverse]
  intro t ht
  apply h.1
  refine ⟨t.reverse, ?_⟩
  have := congrArg List.reverse ht
  rw [List.reverse_reverse] at this
  rw [this]
  simp [dotDb]

theorem trimDb_dbFile (n : Str) : trimDb (dbFile n) = trimDb n := by
  unfold trimDb dbFile
  rw [List.reverse_append]
  show (trimRev (98 :: 100 :: 46 :: n.reverse)).reverse = _
  rw [trimRev, if_pos ⟨rfl, rfl, rfl⟩]

/-- An event about another queue leaves everything about `n` as it is. -/
theorem frame (dflt : Config) (s : Mgr) {e : MEvent} {m n : Str} (ht : e.target = some m) (hne : m ≠ n) :
    (s.step dflt e).1.view n = s.view n := by
  have hf : dbFile n ≠ dbFile m := fun h => hne (dbFile_inj.1 h).symm
  have hc : cfgFile n ≠ cfgFile m := fun h => hne (cfgFile_inj.1 h).symm
  cases e with
  | restart now => cases ht
  | _ =>
    injection ht with ht
    subst ht
    simp only [Mgr.step, Mgr.view, Mgr.build]
    try split
    all_goals simp [mget_put, mget_mset, mget_mdel, hne.symm, hf, hc]

/-- What an event about `n` answers and does to `n` depends on `n` only. -/
theorem local_ (dflt : Config) (s s' : Mgr) {e : MEvent} {n : Str} (ht : e.target = some n) (h : s.view n = s'.view n) :
    (s.step dflt e).2 = (s'.step dflt e).2 ∧ (s.step dflt e).1.view n = (s'.step dflt e).1.view n := by
  simp only [Mgr.view, Prod.mk.injEq] at h
  obtain ⟨h1, h2, h3⟩ := h
  cases e with
  | restart now => cases ht
  | _ =>
    injection ht with ht
    subst ht
    simp only [Mgr.step, Mgr.view, mhas, h1]
    try split
    all_goals simp [Mgr.build, mget_put, mget_mset, mget_mdel, h1, h2, h3]

/-! ### Histories with restarts -/

/-- The queue `n` of the manager is the lone queue `r`. -/
def Agrees (s : Mgr) (n : Str) : Option Sys → Prop
  | none => s.view n = (none, none, none)
  | some r => s.view n = (some ⟨r.q, r.pending⟩, some r.db, some r.q.cfg)

structure MgrInv (s : Mgr) : Prop where
  plain : ∀ f ∈ mkeys s.dbs, ∃ n, f = dbFile n ∧ plainName n
  live : ∀ n, mhas s.live n = mhas s.dbs (dbFile n)
  cfg : ∀ n l, mget s.live n = some l → mget s.cfgs (cfgFile n) = some l.q.cfg
  nocfg : ∀ n, mget s.live n = none → mget s.cfgs (cfgFile n) = none

theorem MgrInv.noSlash {s : Mgr} (h : MgrInv s) {n : Str} (hn : (mget s.dbs (dbFile n)).isSome = true) : (47 : UInt8) ∉ dbFile n := by
  obtain ⟨m, hm, hp⟩ := h.plain _ (mget_isSome.1 hn)
  rw [hm]; exact slash_dbFile hp.2

theorem warm_fold (dflt : Config) (now : Nat) (cfgs : List (Str × Config)) : ∀ (files : List Str) (s : Mgr), s.cfgs = cfgs →
    (∀ f ∈ files, ∃ n, f = dbFile n ∧ plainName n) → (∀ f ∈ files, f ∈ mkeys s.dbs) → ∀ n,
    let r := files.foldl (Mgr.warm dflt now) s
    r.cfgs = cfgs ∧ (∀ f, mget r.dbs f = mget s.dbs f) ∧
    mget r.live n = if dbFile n ∈ files then
      some ⟨recover ((mget cfgs (cfgFile n)).getD dflt) now ((mget s.dbs (dbFile n)).getD DB.empty), []⟩ else mget s.live n := by
  intro files
  induction files with
  | nil => intro s hs _ _ n; simp [hs]
  | cons f t ih =>
    intro s hs hp hk n
    obtain ⟨m, hm, hpm⟩ := hp f (List.mem_cons_self ..)
    have htr : trimDb f = m := by rw [hm, trimDb_dbFile, trimDb_plain hpm]
    have hmem : (mget s.dbs f).isSome := mget_isSome.2 (hk f (List.mem_cons_self ..))
    obtain ⟨db, hdb⟩ := Option.isSome_iff_exists.1 hmem
    have hget : ∀ g, mget (Mgr.warm dflt now s f).dbs g = mget s.dbs g := by
      intro g
      simp only [Mgr.warm, Mgr.build, htr, ← hm, hdb, Option.getD_some, put_eq (hm ▸ slash_dbFile hpm.2), mget_mset]
      split
      · next h => rw [h, hdb]
      · rfl
    have := ih (Mgr.warm dflt now s f) (by simp [Mgr.warm, Mgr.build, hs]) (fun g hg => hp g (List.mem_cons_of_mem _ hg))
      (fun g hg => by rw [← mget_isSome, hget, mget_isSome]; exact hk g (List.mem_cons_of_mem _ hg)) n
    obtain ⟨i1, i2, i3⟩ := this
    refine ⟨i1, fun g => by rw [List.foldl_cons, i2, hget], ?_⟩
    rw [List.foldl_cons, i3, hget]
    have hiff : dbFile n = f ↔ n = m := by rw [hm, dbFile_inj]
    by_cases h1 : dbFile n ∈ t
    · simp [h1]
    · simp only [h1, if_false, List.mem_cons, or_false]
      simp only [Mgr.warm, Mgr.build, htr, mget_mset, hs]
      by_cases h2 : n = m
      · subst h2; simp [hm]
      · rw [if_neg h2, if_neg (fun h => h2 (hiff.1 h))]

theorem MgrInv.new : MgrInv Mgr.new :=
  ⟨by simp [Mgr.new, mkeys], by simp [Mgr.new, mhas], by simp [Mgr.new], by simp [Mgr.new]⟩

theorem MgrInv.step {s : Mgr} (h : MgrInv s) (dflt : Config) (e : MEvent) (hp : PlainNames [e]) :
    MgrInv (s.step dflt e).1 := by
  cases e with
  | create n vt mr now =>
    have hpn : plainName n := by simpa [PlainNames] using hp
    simp only [Mgr.step, Mgr.build, put_eq (slash_dbFile hpn.2), put_eq (slash_cfgFile hpn.2)]
    split
    · exact h
    · next hg =>
      refine ⟨?_, ?_, ?_, ?_⟩
      · intro f hf
        simp only [mem_mkeys_mset] at hf
        rcases hf with hf | hf
        · exact ⟨n, hf, hpn⟩
        · exact h.plain f hf
      · intro m
        have := h.live m
        simp only [mhas] at this ⊢
        simp only [mget_mset, dbFile_inj]
        split
        · rfl
        · exact this
      · intro m l hl
        simp only [mget_mset, cfgFile_inj] at hl ⊢
        split at hl
        · next hm =>
          rw [if_pos hm]
          injection hl with hl
          rw [← hl]; rfl
        · next hm =>
          rw [if_neg hm]
          exact h.cfg m l hl
      · intro m hl
        simp only [mget_mset, cfgFile_inj] at hl ⊢
        split at hl
        · cases hl
        · next hm =>
          rw [if_neg hm]
          exact h.nocfg m hl
  | delete n =>
    refine ⟨?_, ?_, ?_, ?_⟩
    · intro f hf
      exact h.plain f (mem_mkeys_mdel.1 hf).2
    · intro m
      have := h.live m
      simp only [mhas] at this ⊢
      simp only [Mgr.step, mget_mdel, dbFile_inj]
      split
      · rfl
      · exact this
    · intro m l hl
      simp only [Mgr.step, mget_mdel, cfgFile_inj] at hl ⊢
      split at hl
      · cases hl
      · next hm => rw [if_neg hm]; exact h.cfg m l hl
    · intro m hl
      simp only [Mgr.step, mget_mdel, cfgFile_inj] at hl ⊢
      split at hl
      · next hm => rw [if_pos hm]
      · next hm => rw [if_neg hm]; exact h.nocfg m hl
  | exist n => exact h
  | op n o =>
    simp only [Mgr.step]
    split
    · exact h
    · next l hg =>
      refine ⟨h.plain, ?_, ?_, ?_⟩
      · intro m
        have := h.live m
        simp only [mhas] at this ⊢
        simp only [mget_mset]
        split
        · next hm => rw [hm] at this ⊢; rw [← this, hg]; rfl
        · exact this
      · intro m l' hl
        simp only [mget_mset] at hl
        split at hl
        · next hm =>
          injection hl with hl
          rw [← hl, hm]
          simp only [step_cfg]
          exact h.cfg n l hg
        · exact h.cfg m l' hl
      · intro m hl
        simp only [mget_mset] at hl
        split at hl
        · cases hl
        · exact h.nocfg m hl
  | commit n k =>
    simp only [Mgr.step]
    split
    · exact h
    · next l hg =>
      have hdb : dbFile n ∈ mkeys s.dbs := by
        rw [← mget_isSome]
        have := h.live n
        simp only [mhas, hg] at this
        exact this.symm
      rw [put_eq (h.noSlash (mget_isSome.2 hdb))]
      refine ⟨?_, ?_, ?_, ?_⟩
      · intro f hf
        simp only [mem_mkeys_mset] at hf
        rcases hf with hf | hf
        · rw [hf]; exact h.plain _ hdb
        · exact h.plain f hf
      · intro m
        have := h.live m
        simp only [mhas] at this ⊢
        simp only [mget_mset, dbFile_inj]
        split
        · rfl
        · exact this
      · intro m l' hl
        simp only [mget_mset] at hl
        split at hl
        · next hm =>
          injection hl with hl
          rw [← hl, hm]
          exact h.cfg n l hg
        · exact h.cfg m l' hl
      · intro m hl
        simp only [mget_mset] at hl
        split at hl
        · cases hl
        · exact h.nocfg m hl
  | restart now =>
    have hw := fun n => warm_fold dflt now s.cfgs (mkeys s.dbs) { s with live := [] } rfl h.plain (fun f hf => hf) n
    simp only [Mgr.step]
    have hlive : ∀ n, mget ((mkeys s.dbs).foldl (Mgr.warm dflt now) { s with live := [] }).live n = if dbFile n ∈ mkeys s.dbs then
      some ⟨recover ((mget s.cfgs (cfgFile n)).getD dflt) now ((mget s.dbs (dbFile n)).getD DB.empty), []⟩ else none :=
      fun n => (hw n).2.2
    have hcf := (hw []).1
    have hdbs := (hw []).2.1
    have hkey : ∀ n, dbFile n ∈ mkeys s.dbs ↔ (mget s.live n).isSome := by
      intro n
      rw [← mhas_iff, ← h.live n]; rfl
    refine ⟨?_, ?_, ?_, ?_⟩
    · intro f hf
      rw [← mget_isSome, hdbs, mget_isSome] at hf
      exact h.plain f hf
    · intro n
      simp only [mhas, hdbs, hlive]
      by_cases hm : dbFile n ∈ mkeys s.dbs
      · rw [if_pos hm, Option.isSome_some, mget_isSome.2 hm]
      · rw [if_neg hm, mget_eq_none.2 hm, Option.isSome_none, Option.isSome_none]
    · intro n l hl
      rw [hlive] at hl
      split at hl
      · next hm =>
        injection hl with hl
        rw [hcf, ← hl]
        obtain ⟨l0, hl0⟩ := Option.isSome_iff_exists.1 ((hkey n).1 hm)
        rw [h.cfg n l0 hl0]; rfl
      · cases hl
    · intro n hl
      rw [hlive] at hl
      split at hl
      · cases hl
      · next hm =>
        rw [hcf]
        refine h.nocfg n ?_
        cases hq : mget s.live n with
        | none => rfl
        | some l => exact absurd ((hkey n).2 (by rw [hq]; rfl)) hm

/-- The manager's queue `n` and the lone queue make the same step and give the same answer. -/
theorem Agrees.step {s : Mgr} (h : MgrInv s) (dflt : Config) {n : Str} {r : Option Sys} (ha : Agrees s n r) (e : MEvent)
    (he : e.about n = true) (hp : PlainNames [e]) :
    Agrees (s.step dflt e).1 n (loneStep dflt r e).1 ∧ (s.step dflt e).2 = (loneStep dflt r e).2 := by
  cases e with
  | restart now =>
    have hw := warm_fold dflt now s.cfgs (mkeys s.dbs) { s with live := [] } rfl h.plain (fun f hf => hf) n
    obtain ⟨hcf, hdbs, hlive⟩ := hw
    simp only [Mgr.step, loneStep, and_true]
    cases r with
    | none =>
      simp only [Agrees, Mgr.view, Prod.mk.injEq] at ha
      obtain ⟨h1, h2, h3⟩ := ha
      simp only [Option.map_none, Agrees, Mgr.view, hcf, hdbs, hlive, h2, h3]
      rw [if_neg (mget_eq_none.1 h2)]; rfl
    | some r =>
      simp only [Agrees, Mgr.view, Prod.mk.injEq] at ha
      obtain ⟨h1, h2, h3⟩ := ha
      simp only [Option.map_some, Agrees, Mgr.view, hcf, hdbs, hlive, h2, h3, Sys.step]
      rw [if_pos (mget_isSome.1 (by rw [h2]; rfl))]; rfl
  | create m vt mr now =>
    simp only [MEvent.about, MEvent.target, decide_eq_true_eq] at he
    subst he
    cases r with
    | none =>
      simp only [Agrees, Mgr.view, Prod.mk.injEq] at ha
      obtain ⟨h1, h2, h3⟩ := ha
      have hpn : plainName m := by simpa [PlainNames] using hp
      simp only [Mgr.step, loneStep, h1, Agrees, Mgr.view, Mgr.build, put_eq (slash_dbFile hpn.2), put_eq (slash_cfgFile hpn.2), mget_mset, if_true, h2]
      exact ⟨rfl, trivial⟩
    | some r =>
      have h1 : mget s.live m = _ := (congrArg Prod.fst ha)
      simp only [Mgr.step, loneStep, h1]
      exact ⟨ha, trivial⟩
  | delete m =>
    simp only [MEvent.about, MEvent.target, decide_eq_true_eq] at he
    subst he
    simp [Mgr.step, loneStep, Agrees, Mgr.view, mget_mdel]
  | exist m =>
    simp only [MEvent.about, MEvent.target, decide_eq_true_eq] at he
    subst he
    refine ⟨ha, ?_⟩
    simp only [Mgr.step, loneStep, mhas]
    cases r with
    | none =>
      have h1 : mget s.live m = _ := (congrArg Prod.fst ha)
      rw [h1]; rfl
    | some r =>
      have h1 : mget s.live m = _ := (congrArg Prod.fst ha)
      rw [h1]; rfl
  | op m o =>
    simp only [MEvent.about, MEvent.target, decide_eq_true_eq] at he
    subst he
    cases r with
    | none =>
      have h1 : mget s.live m = _ := (congrArg Prod.fst ha)
      simp only [Mgr.step, loneStep, h1]
      exact ⟨ha, trivial⟩
    | some r =>
      simp only [Agrees, Mgr.view, Prod.mk.injEq] at ha
      obtain ⟨h1, h2, h3⟩ := ha
      simp only [Mgr.step, loneStep, h1, Agrees, Mgr.view, mget_mset, if_true, h2, h3, Sys.step, step_cfg, and_self]
  | commit m k =>
    simp only [MEvent.about, MEvent.target, decide_eq_true_eq] at he
    subst he
    cases r with
    | none =>
      have h1 : mget s.live m = _ := (congrArg Prod.fst ha)
      simp only [Mgr.step, loneStep, h1]
      exact ⟨ha, trivial⟩
    | some r =>
      simp only [Agrees, Mgr.view, Prod.mk.injEq] at ha
      obtain ⟨h1, h2, h3⟩ := ha
      have hsl := h.noSlash (n := m) (by rw [h2]; rfl)
      simp only [Mgr.step, loneStep, h1, Agrees, Mgr.view, put_eq hsl, mget_mset, if_true, h2, h3, Sys.step, Option.map_some, Option.getD_some, and_self]

/-! ### Names with a separator -/

theorem trimRev_subset : ∀ (r : Str), ∀ c ∈ trimRev r, c ∈ r := by
  intro r
  induction r using trimRev.induct with
  | case1 a b c t h ih =>
    intro x hx
    rw [trimRev, if_pos h] at hx
    exact List.mem_cons_of_mem _ (List.mem_cons_of_mem _ (List.mem_cons_of_mem _ (ih x hx)))
  | case2 a b c t h =>
    intro x hx
    rw [trimRev, if_neg h] at hx
    exact hx
  | case3 s h => intro x hx; rwa [trimRev.eq_2 s h] at hx

theorem trimDb_subset {s : Str} {c : UInt8} (h : c ∈ trimDb s) : c ∈ s := by
  unfold trimDb at h
  exact List.mem_reverse.1 (trimRev_subset _ c (List.mem_reverse.1 h))

theorem keys_put {α : Type} {files : List (Str × α)} {f : Str} {v : α} (h : ∀ g ∈ mkeys files, (47 : UInt8) ∉ g) :
    ∀ g ∈ mkeys (put files f v), (47 : UInt8) ∉ g := by
  intro g hg
  by_cases hf : (47 : UInt8) ∈ f
  · simp only [put, List.contains_iff_mem.2 hf, if_true] at hg; exact h g hg
  · rw [put_eq hf, mem_mkeys_mset] at hg
    rcases hg with rfl | hg
    · exact hf
    · exact h g hg

/-- The files of the data directory are in no subdirectory. -/
theorem flat_warm (dflt : Config) (now : Nat) {s : Mgr} (h : ∀ g ∈ mkeys s.dbs, (47 : UInt8) ∉ g) (f : Str) :
    ∀ g ∈ mkeys (Mgr.warm dflt now s f).dbs, (47 : UInt8) ∉ g := keys_put h

theorem flat_fold (dflt : Config) (now : Nat) : ∀ (files : List Str) {s : Mgr}, (∀ g ∈ mkeys s.dbs, (47 : UInt8) ∉ g) →
    ∀ g ∈ mkeys (files.foldl (Mgr.warm dflt now) s).dbs, (47 : UInt8) ∉ g
  | [], _, h => h
  | f :: t, _, h => flat_fold dflt now t (flat_warm dflt now h f)

theorem flat_step (dflt : Config) {s : Mgr} (h : ∀ g ∈ mkeys s.dbs, (47 : UInt8) ∉ g) (e : MEvent) :
    ∀ g ∈ mkeys (s.step dflt e).1.dbs, (47 : UInt8) ∉ g := by
  cases e with
  | create n vt mr now =>
    simp only [Mgr.step]
    split
    · exact h
    · exact keys_put h
  | delete n => intro g hg; exact h g (mem_mkeys_mdel.1 hg).2
  | exist n => exact h
  | op n o =>
    simp only [Mgr.step]
    split <;> exact h
  | commit n k =>
    simp only [Mgr.step]
    split
    · exact h
    · exact keys_put h
  | restart now => exact flat_fold dflt now _ h

theorem flat_run (dflt : Config) : ∀ (es : List MEvent) {s : Mgr}, (∀ g ∈ mkeys s.dbs, (47 : UInt8) ∉ g) →
    ∀ g ∈ mkeys (s.run dflt es).1.dbs, (47 : UInt8) ∉ g
  | [], _, h => h
  | e :: t, _, h => flat_run dflt t (flat_step dflt h e)

/-- No queue of a warm start has a separator in its name. -/
theorem warm_names (dflt : Config) (now : Nat) : ∀ (files : List Str) {s : Mgr}, (∀ f ∈ files, (47 : UInt8) ∉ f) →
    ∀ n, (47 : UInt8) ∈ n → mget (files.foldl (Mgr.warm dflt now) s).live n = mget s.live n
  | [], _, _, _, _ => rfl
  | f :: t, s, h, n, hn => by
    rw [List.foldl_cons, warm_names dflt now t (fun g hg => h g (List.mem_cons_of_mem _ hg)) n hn]
    have hne : n ≠ trimDb f := fun he => h f (List.mem_cons_self ..) (trimDb_subset (he ▸ hn))
    simp only [Mgr.warm, Mgr.build, mget_mset, if_neg hne]

theorem Agrees.run (dflt : Config) {n : Str} : ∀ (es : List MEvent) {s : Mgr} {r : Option Sys}, MgrInv s → Agrees s n r → PlainNames es →
    Agrees (s.run dflt es).1 n (loneRun dflt r (es.filter (MEvent.about n))).1 ∧
    answersFor n es (s.run dflt es).2 = (loneRun dflt r (es.filter (MEvent.about n))).2 ∧ MgrInv (s.run dflt es).1 := by
  intro es
  induction es with
  | nil => intro s r h ha _; exact ⟨ha, rfl, h⟩
  | cons e t ih =>
    intro s r h ha hp
    have hpe : PlainNames [e] := fun x hx => hp x (by rw [List.mem_singleton.1 hx]; exact List.mem_cons_self ..)
    have hpt : PlainNames t := fun x hx => hp x (List.mem_cons_of_mem _ hx)
    have hi := h.step dflt e hpe
    simp only [Mgr.run, answersFor]
    by_cases hab : e.about n = true
    · obtain ⟨a1, a2⟩ := Agrees.step h dflt ha e hab hpe
      obtain ⟨b1, b2, b3⟩ := ih hi a1 hpt
      rw [List.filter_cons_of_pos hab]
      simp only [hab, if_true, loneRun]
      exact ⟨b1, by rw [b2, a2], b3⟩
    · rw [List.filter_cons_of_neg hab]
      simp only [hab]
      have : Agrees (s.step dflt e).1 n r := by
        have hv : (s.step dflt e).1.view n = s.view n := by
          cases ht : e.target with
          | none => exact absurd (by simp [MEvent.about, ht]) hab
          | some m => exact frame dflt s ht (fun hmn => hab (by simp [MEvent.about, ht, hmn]))
        cases r with
        | none => simp only [Agrees, hv] at ha ⊢; exact ha
        | some r => simp only [Agrees, hv] at ha ⊢; exact ha
      exact ih hi this hpt

end Verif.Queue
