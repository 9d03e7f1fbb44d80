import Verif.Model.PubSubScan
import Verif.Proofs.PubSub

/-! # What the dashboard shows of the pattern tree -/

namespace Verif.PubSub

/-- Induction over all children. -/
theorem Node.indAll {P : Node → Prop}
    (h : ∀ ch p hh s r, (∀ e ∈ ch, P e.2) → (∀ n, p = some n → P n) → (∀ n, hh = some n → P n) → P (.mk ch p hh s r)) : ∀ n, P n
  | .mk ch p hh s r => h ch p hh s r (fun e he => Node.indAll h e.2) (fun n hn => Node.indAll h n) (fun n hn => Node.indAll h n)
termination_by n => sizeOf n
decreasing_by
  · simp_wf
    have := List.sizeOf_lt_of_mem he
    cases e
    simp at this ⊢
    omega
  · subst hn; simp_wf; omega
  · subst hn; simp_wf; omega

/-- No level occurs twice below a node, no client twice at a node; wildcard nodes hold no retained values. -/
def Good (n : Node) : Prop :=
  ∀ es m, nav es n = some m → MWF m.children ∧ m.subs.Nodup ∧ (m.retained.isSome → ∀ e ∈ es, ∃ s, e = .kid s)

/-- No retained value at or below a node. -/
def Bare (n : Node) : Prop := ∀ es m, nav es n = some m → MWF m.children ∧ m.subs.Nodup ∧ m.retained = none

theorem good_iff {n : Node} : Good n ↔ (MWF n.children ∧ n.subs.Nodup) ∧ (∀ s c, mget n.children s = some c → Good c) ∧
    (∀ p, n.plus = some p → Bare p) ∧ ∀ h, n.hash = some h → Bare h := by
  constructor
  · intro hg
    refine ⟨⟨(hg [] n rfl).1, (hg [] n rfl).2.1⟩, ?_, ?_, ?_⟩
    · intro s c hc es m hm
      obtain ⟨h1, h2, h3⟩ := hg (.kid s :: es) m (by simp only [nav, hc]; exact hm)
      exact ⟨h1, h2, fun h e he => h3 h e (List.mem_cons_of_mem _ he)⟩
    · intro c hc es m hm
      obtain ⟨h1, h2, h3⟩ := hg (.plus :: es) m (by simp only [nav, hc]; exact hm)
      refine ⟨h1, h2, ?_⟩
      cases hr : m.retained with
      | none => rfl
      | some r => obtain ⟨s, hs⟩ := h3 (by rw [hr]; rfl) _ (List.mem_cons_self ..); cases hs
    · intro c hc es m hm
      obtain ⟨h1, h2, h3⟩ := hg (.hash :: es) m (by simp only [nav, hc]; exact hm)
      refine ⟨h1, h2, ?_⟩
      cases hr : m.retained with
      | none => rfl
      | some r => obtain ⟨s, hs⟩ := h3 (by rw [hr]; rfl) _ (List.mem_cons_self ..); cases hs
  · rintro ⟨h0, h1, h2, h3⟩ es m hm
    cases es with
    | nil => cases hm; exact ⟨h0.1, h0.2, fun _ e he => nomatch he⟩
    | cons e es =>
      cases e with
      | kid s =>
        simp only [nav] at hm
        split at hm
        · next c hc =>
          obtain ⟨a, b, c⟩ := h1 s c hc es m hm
          refine ⟨a, b, fun h e he => ?_⟩
          rcases List.mem_cons.mp he with rfl | he
          · exact ⟨s, rfl⟩
          · exact c h e he
        · cases hm
      | plus =>
        simp only [nav] at hm
        split at hm
        · next c hc => obtain ⟨a, b, c⟩ := h2 c hc es m hm; exact ⟨a, b, fun h => by rw [c] at h; cases h⟩
        · cases hm
      | hash =>
        simp only [nav] at hm
        split at hm
        · next c hc => obtain ⟨a, b, c⟩ := h3 c hc es m hm; exact ⟨a, b, fun h => by rw [c] at h; cases h⟩
        · cases hm

theorem bare_iff {n : Node} : Bare n ↔ (MWF n.children ∧ n.subs.Nodup ∧ n.retained = none) ∧ (∀ s c, mget n.children s = some c → Bare c) ∧
    (∀ p, n.plus = some p → Bare p) ∧ ∀ h, n.hash = some h → Bare h := by
  constructor
  · intro hg
    refine ⟨hg [] n rfl, ?_, ?_, ?_⟩
    · intro s c hc es m hm; exact hg (.kid s :: es) m (by simp only [nav, hc]; exact hm)
    · intro c hc es m hm; exact hg (.plus :: es) m (by simp only [nav, hc]; exact hm)
    · intro c hc es m hm; exact hg (.hash :: es) m (by simp only [nav, hc]; exact hm)
  · rintro ⟨h0, h1, h2, h3⟩ es m hm
    cases es with
    | nil => cases hm; exact h0
    | cons e es =>
      cases e <;> simp only [nav] at hm <;> split at hm
      · next c hc => exact h1 _ c hc es m hm
      · cases hm
      · next c hc => exact h2 c hc es m hm
      · cases hm
      · next c hc => exact h3 c hc es m hm
      · cases hm

theorem Bare.empty : Bare .empty :=
  bare_iff.mpr ⟨⟨List.nodup_nil, List.nodup_nil, rfl⟩, fun _ _ h => (by cases h), fun _ h => (by cases h), fun _ h => (by cases h)⟩

theorem Bare.good {n : Node} (h : Bare n) : Good n := fun es m hm =>
  ⟨(h es m hm).1, (h es m hm).2.1, fun hr => by rw [(h es m hm).2.2] at hr; cases hr⟩

theorem nodup_setInsert [DecidableEq α] {a : α} {l : List α} (h : l.Nodup) : (setInsert a l).Nodup := by
  unfold setInsert
  split
  · exact h
  · next hn =>
    rw [List.nodup_append]
    refine ⟨h, by simp, ?_⟩
    rintro x hx y hy rfl
    simp only [List.mem_singleton] at hy
    exact hn (hy ▸ hx)

theorem nodup_setRemove [DecidableEq α] {a : α} {l : List α} (h : l.Nodup) : (setRemove a l).Nodup := h.sublist List.filter_sublist

theorem mget_mset_cases {m : List (Str × Node)} {k s : Str} {v w : Node} (h : mget (mset m k v) s = some w) :
    (s = k ∧ w = v) ∨ mget m s = some w := by
  rw [mget_mset] at h
  split at h
  · next hs => cases h; exact .inl ⟨hs, rfl⟩
  · exact .inr h

theorem mget_mdel_cases {m : List (Str × Node)} {k s : Str} {w : Node} (h : mget (mdel m k) s = some w) : mget m s = some w := by
  rw [mget_mdel] at h
  split at h
  · cases h
  · exact h

theorem Bare.addSub {n : Node} (h : Bare n) (c : Cid) : Bare (n.addSub c) := by
  obtain ⟨h0, h1⟩ := bare_iff.mp h
  exact bare_iff.mpr ⟨⟨h0.1, nodup_setInsert h0.2.1, h0.2.2⟩, h1⟩

theorem Bare.delSub {n : Node} (h : Bare n) (c : Cid) : Bare (n.delSub c) := by
  obtain ⟨h0, h1⟩ := bare_iff.mp h
  exact bare_iff.mpr ⟨⟨h0.1, nodup_setRemove h0.2.1, h0.2.2⟩, h1⟩

theorem bare_getD {o : Option Node} (h : ∀ n, o = some n → Bare n) : Bare (o.getD .empty) := by
  cases o with
  | none => exact Bare.empty
  | some n => exact h n rfl

theorem good_getD {o : Option Node} (h : ∀ n, o = some n → Good n) : Good (o.getD .empty) := by
  cases o with
  | none => exact Bare.empty.good
  | some n => exact h n rfl

theorem Bare.insert {n : Node} (h : Bare n) (c : Cid) (p : List Str) : Bare (insertSub c p n) := by
  induction p generalizing n with
  | nil => exact h.addSub c
  | cons part rest ih =>
    obtain ⟨h0, h1, h2, h3⟩ := bare_iff.mp h
    unfold insertSub
    split
    · exact bare_iff.mpr ⟨h0, h1, h2, fun m hm => by cases hm; exact (bare_getD h3).addSub c⟩
    · split
      · exact bare_iff.mpr ⟨h0, h1, fun m hm => by cases hm; exact ih (bare_getD h2), h3⟩
      · refine bare_iff.mpr ⟨⟨h0.1.mset _ _, h0.2⟩, ?_, h2, h3⟩
        intro s m hm
        rcases mget_mset_cases hm with ⟨rfl, rfl⟩ | hm
        · exact ih (bare_getD (h1 _))
        · exact h1 s m hm

theorem Good.insert {n : Node} (h : Good n) (c : Cid) (p : List Str) : Good (insertSub c p n) := by
  induction p generalizing n with
  | nil =>
    obtain ⟨h0, h1⟩ := good_iff.mp h
    exact good_iff.mpr ⟨⟨h0.1, nodup_setInsert h0.2⟩, h1⟩
  | cons part rest ih =>
    obtain ⟨h0, h1, h2, h3⟩ := good_iff.mp h
    unfold insertSub
    split
    · exact good_iff.mpr ⟨h0, h1, h2, fun m hm => by cases hm; exact (bare_getD h3).addSub c⟩
    · split
      · exact good_iff.mpr ⟨h0, h1, fun m hm => by cases hm; exact (bare_getD h2).insert c rest, h3⟩
      · refine good_iff.mpr ⟨⟨h0.1.mset _ _, h0.2⟩, ?_, h2, h3⟩
        intro s m hm
        rcases mget_mset_cases hm with ⟨rfl, rfl⟩ | hm
        · exact ih (good_getD (h1 _))
        · exact h1 s m hm

theorem Bare.remove {n : Node} (h : Bare n) (c : Cid) (p : List Str) : Bare (removeSub c p n).1 := by
  induction p generalizing n with
  | nil => exact h.delSub c
  | cons part rest ih =>
    obtain ⟨h0, h1, h2, h3⟩ := bare_iff.mp h
    unfold removeSub
    simp only
    split
    · cases hh : n.hash with
      | none => exact h
      | some hn =>
        refine bare_iff.mpr ⟨h0, h1, h2, fun m hm => ?_⟩
        simp only [Node.hash] at hm
        split at hm
        · cases hm
        · cases hm; exact (h3 hn hh).delSub c
    · split
      · cases hh : n.plus with
        | none => exact h
        | some hn =>
          refine bare_iff.mpr ⟨h0, h1, fun m hm => ?_, h3⟩
          simp only [Node.plus] at hm
          split at hm
          · cases hm
          · cases hm; exact ih (h2 hn hh)
      · cases hh : mget n.children part with
        | none => exact h
        | some hn =>
          simp only
          refine bare_iff.mpr ⟨⟨?_, h0.2⟩, ?_, h2, h3⟩
          · simp only [Node.children]; split
            · exact h0.1.mdel _
            · exact h0.1.mset _ _
          · intro s m hm
            simp only [Node.children] at hm
            split at hm
            · exact h1 s m (mget_mdel_cases hm)
            · rcases mget_mset_cases hm with ⟨rfl, rfl⟩ | hm
              · exact ih (h1 _ _ hh)
              · exact h1 s m hm

theorem Good.remove {n : Node} (h : Good n) (c : Cid) (p : List Str) : Good (removeSub c p n).1 := by
  induction p generalizing n with
  | nil =>
    obtain ⟨h0, h1⟩ := good_iff.mp h
    exact good_iff.mpr ⟨⟨h0.1, nodup_setRemove h0.2⟩, h1⟩
  | cons part rest ih =>
    obtain ⟨h0, h1, h2, h3⟩ := good_iff.mp h
    unfold removeSub
    simp only
    split
    · cases hh : n.hash with
      | none => exact h
      | some hn =>
        refine good_iff.mpr ⟨h0, h1, h2, fun m hm => ?_⟩
        simp only [Node.hash] at hm
        split at hm
        · cases hm
        · cases hm; exact (h3 hn hh).delSub c
    · split
      · cases hh : n.plus with
        | none => exact h
        | some hn =>
          refine good_iff.mpr ⟨h0, h1, fun m hm => ?_, h3⟩
          simp only [Node.plus] at hm
          split at hm
          · cases hm
          · cases hm; exact (h2 hn hh).remove c rest
      · cases hh : mget n.children part with
        | none => exact h
        | some hn =>
          simp only
          refine good_iff.mpr ⟨⟨?_, h0.2⟩, ?_, h2, h3⟩
          · simp only [Node.children]; split
            · exact h0.1.mdel _
            · exact h0.1.mset _ _
          · intro s m hm
            simp only [Node.children] at hm
            split at hm
            · exact h1 s m (mget_mdel_cases hm)
            · rcases mget_mset_cases hm with ⟨rfl, rfl⟩ | hm
              · exact ih (h1 _ _ hh)
              · exact h1 s m hm

theorem Good.foldl_remove {n : Node} (h : Good n) (c : Cid) (l : List Str) : Good (l.foldl (fun t p => (removeSub c (split p) t).1) n) := by
  induction l generalizing n with
  | nil => exact h
  | cons p l ih => exact ih (h.remove c _)

theorem Good.setRetained {n : Node} (h : Good n) (r : Option Retained) (p : List Str) : Good (setRetained r p n) := by
  induction p generalizing n with
  | nil =>
    obtain ⟨h0, h1⟩ := good_iff.mp h
    exact good_iff.mpr ⟨h0, h1⟩
  | cons part rest ih =>
    obtain ⟨h0, h1, h2, h3⟩ := good_iff.mp h
    unfold PubSub.setRetained
    refine good_iff.mpr ⟨⟨h0.1.mset _ _, h0.2⟩, ?_, h2, h3⟩
    intro s m hm
    rcases mget_mset_cases hm with ⟨rfl, rfl⟩ | hm
    · exact ih (good_getD (h1 _))
    · exact h1 s m hm

/-- Where the edges lead after a cleanup. -/
theorem nav_cleanup (now : Nat) (es : List Edge) (n : Node) : nav es (cleanup now n).1 = (nav es n).map (fun m => (cleanup now m).1) := by
  induction es generalizing n with
  | nil => rfl
  | cons e es ih =>
    cases n with
    | mk ch p h s r =>
      cases e with
      | kid k =>
        simp only [cleanup, nav, Node.children]
        rw [mget_cleanupKids]
        cases mget ch k with
        | none => rfl
        | some c => exact ih c
      | plus =>
        simp only [cleanup, nav, Node.plus]
        cases p with
        | none => rfl
        | some c => exact ih c
      | hash =>
        simp only [cleanup, nav, Node.hash]
        cases h with
        | none => rfl
        | some c => exact ih c

theorem cleanupKids_keys (now : Nat) (ch : List (Str × Node)) : (cleanupKids now ch).1.map (·.1) = ch.map (·.1) := by
  induction ch with
  | nil => rfl
  | cons e t ih => cases e; simp only [cleanupKids, List.map_cons, ih]

theorem Good.cleanup {n : Node} (h : Good n) (now : Nat) : Good (cleanup now n).1 := by
  intro es m hm
  rw [nav_cleanup] at hm
  cases hn : nav es n with
  | none => rw [hn] at hm; cases hm
  | some m0 =>
    rw [hn] at hm
    cases hm
    obtain ⟨h1, h2, h3⟩ := h es m0 hn
    cases m0 with
    | mk ch p hh s r =>
      refine ⟨?_, h2, ?_⟩
      · show ((cleanupKids now ch).1.map (·.1)).Nodup
        rw [cleanupKids_keys]; exact h1
      · intro hs
        refine h3 ?_
        simp only [PubSub.cleanup, Node.retained] at hs ⊢
        cases r with
        | none => simp at hs
        | some r => rfl

/-! ## The entries -/

/-- The name of a level. -/
def Edge.label : Edge → Str
  | .kid s => s
  | .plus => plusS
  | .hash => hashS

theorem collectTopicsKids_eq (now : Nat) (search : Option Str) (path : Str) (ch : List (Str × Node)) :
    collectTopicsKids now search path ch = ch.flatMap (fun c => collectTopics now search (joinPath path c.1) c.2) := by
  induction ch with
  | nil => rfl
  | cons c t ih => cases c; simp [collectTopicsKids, ih]

/-- An entry is that of a node, with the path of the node. -/
theorem mem_collectTopics {now : Nat} {search : Option Str} {n : Node} (hg : ∀ es m, nav es n = some m → MWF m.children) {path : Str} {x : TopicInfo} :
    x ∈ collectTopics now search path n ↔
      ∃ es m, nav es n = some m ∧ x ∈ topicHere now search (pathOf path (es.map Edge.label)) m.subs m.retained := by
  induction n using Node.indAll generalizing path with
  | h ch p hh s r ih1 ih2 ih3 =>
    have hmw : MWF ch := hg [] _ rfl
    simp only [collectTopics, List.mem_append, collectTopicsKids_eq, List.mem_flatMap]
    constructor
    · rintro (((h | ⟨⟨k, c⟩, hc, h⟩) | h) | h)
      · exact ⟨[], _, rfl, h⟩
      · have hk : mget ch k = some c := hmw.mem_iff.mp hc
        have hg' : ∀ es m, nav es c = some m → MWF m.children :=
          fun es m hm => hg (.kid k :: es) m (by simp only [nav, Node.children, hk]; exact hm)
        obtain ⟨es, m, h1, h2⟩ := (ih1 _ hc hg').mp h
        exact ⟨.kid k :: es, m, by simp only [nav, Node.children, hk]; exact h1, h2⟩
      · cases p with
        | none => cases h
        | some c =>
          have hg' : ∀ es m, nav es c = some m → MWF m.children := fun es m hm => hg (.plus :: es) m hm
          obtain ⟨es, m, h1, h2⟩ := (ih2 c rfl hg').mp h
          exact ⟨.plus :: es, m, h1, h2⟩
      · cases hh with
        | none => cases h
        | some c =>
          have hg' : ∀ es m, nav es c = some m → MWF m.children := fun es m hm => hg (.hash :: es) m hm
          obtain ⟨es, m, h1, h2⟩ := (ih3 c rfl hg').mp h
          exact ⟨.hash :: es, m, h1, h2⟩
    · rintro ⟨es, m, h1, h2⟩
      cases es with
      | nil => cases h1; exact .inl (.inl (.inl h2))
      | cons e es =>
        cases e with
        | kid k =>
          simp only [nav, Node.children] at h1
          split at h1
          · next c hk =>
            have hg' : ∀ es m, nav es c = some m → MWF m.children :=
              fun es m hm => hg (.kid k :: es) m (by simp only [nav, Node.children, hk]; exact hm)
            have hc := hmw.mem_iff.mpr hk
            exact .inl (.inl (.inr ⟨(k, c), hc, (ih1 _ hc hg').mpr ⟨es, m, h1, h2⟩⟩))
          · cases h1
        | plus =>
          simp only [nav, Node.plus] at h1
          split at h1
          · next c =>
            have hg' : ∀ es m, nav es c = some m → MWF m.children := fun es m hm => hg (.plus :: es) m hm
            exact .inl (.inr ((ih2 c rfl hg').mpr ⟨es, m, h1, h2⟩))
          · cases h1
        | hash =>
          simp only [nav, Node.hash] at h1
          split at h1
          · next c =>
            have hg' : ∀ es m, nav es c = some m → MWF m.children := fun es m hm => hg (.hash :: es) m hm
            exact .inr ((ih3 c rfl hg').mpr ⟨es, m, h1, h2⟩)
          · cases h1

theorem insertTopic_perm (x : TopicInfo) (l : List TopicInfo) : (insertTopic x l).Perm (x :: l) := by
  induction l with
  | nil => exact .refl _
  | cons y t ih =>
    unfold insertTopic
    split
    · exact .refl _
    · exact (ih.cons y).trans (.swap x y t)

theorem sortTopics_perm (l : List TopicInfo) : (sortTopics l).Perm l := by
  induction l with
  | nil => exact .refl _
  | cons x l ih => exact (insertTopic_perm x _).trans (ih.cons x)

theorem strLe_total (a b : Str) : strLe a b = true ∨ strLe b a = true := by
  induction a generalizing b with
  | nil => exact .inl rfl
  | cons x a ih =>
    cases b with
    | nil => exact .inr rfl
    | cons y b =>
      simp only [strLe]
      by_cases h1 : x < y
      · exact .inl (by rw [if_pos h1])
      · by_cases h2 : y < x
        · exact .inr (by rw [if_pos h2])
        · rw [if_neg h1, if_neg h2, if_neg h2, if_neg h1]
          exact ih b

theorem strLe_trans {a b c : Str} (h1 : strLe a b = true) (h2 : strLe b c = true) : strLe a c = true := by
  induction a generalizing b c with
  | nil => rfl
  | cons x a ih =>
    cases b with
    | nil => cases h1
    | cons y b =>
      cases c with
      | nil => cases h2
      | cons z c =>
        simp only [strLe] at h1 h2 ⊢
        simp only [UInt8.lt_iff_toNat_lt] at h1 h2 ⊢
        split at h1
        · split at h2
          · rw [if_pos (by omega)]
          · split at h2
            · cases h2
            · rw [if_pos (by omega)]
        · split at h1
          · cases h1
          · split at h2
            · rw [if_pos (by omega)]
            · split at h2
              · cases h2
              · rw [if_neg (by omega), if_neg (by omega)]
                exact ih h1 h2

theorem insertTopic_sorted {x : TopicInfo} {l : List TopicInfo} (h : l.Pairwise (fun a b => strLe a.path b.path = true)) :
    (insertTopic x l).Pairwise (fun a b => strLe a.path b.path = true) := by
  induction l with
  | nil => simp [insertTopic]
  | cons y t ih =>
    rw [List.pairwise_cons] at h
    unfold insertTopic
    split
    · next hxy =>
      rw [List.pairwise_cons, List.pairwise_cons]
      refine ⟨?_, h⟩
      intro z hz
      rcases List.mem_cons.mp hz with rfl | hz
      · exact hxy
      · exact strLe_trans hxy (h.1 z hz)
    · next hxy =>
      rw [List.pairwise_cons]
      refine ⟨?_, ih h.2⟩
      intro z hz
      rcases List.mem_cons.mp ((insertTopic_perm x t).mem_iff.mp hz) with rfl | hz
      · exact (strLe_total _ _).resolve_left hxy
      · exact h.1 z hz

theorem sortTopics_sorted (l : List TopicInfo) : (sortTopics l).Pairwise (fun a b => strLe a.path b.path = true) := by
  induction l with
  | nil => exact .nil
  | cons x l ih => exact insertTopic_sorted ih

theorem mem_topicList {now : Nat} {search : Option Str} {n : Node} {x : TopicInfo} :
    x ∈ topicList now search n ↔ x ∈ collectTopics now search [] n := (sortTopics_perm _).mem_iff

/-- The edges of a proper pattern, read as levels. -/
theorem edges_label {p : List Str} (h : hashLast p = true) : (edges p).map Edge.label = p := by
  induction p with
  | nil => rfl
  | cons s t ih =>
    unfold edges
    by_cases h1 : s = hashS
    · rw [if_pos h1]
      subst h1
      cases t with
      | nil => rfl
      | cons a b => simp [hashLast] at h
    · rw [if_neg h1]
      have ht : hashLast t = true := by
        cases t with
        | nil => rfl
        | cons a b =>
          simp only [hashLast, Bool.and_eq_true] at h
          exact h.2
      by_cases h2 : s = plusS
      · rw [if_pos h2]
        subst h2
        simp only [List.map_cons, ih ht, Edge.label]
      · rw [if_neg h2]
        simp only [List.map_cons, ih ht, Edge.label]

/-- The levels of a topic without wildcards. -/
theorem edges_plain {p : List Str} (h : ∀ s ∈ p, s ≠ plusS ∧ s ≠ hashS) : edges p = p.map Edge.kid := by
  induction p with
  | nil => rfl
  | cons s t ih =>
    unfold edges
    rw [if_neg (h s (List.mem_cons_self ..)).2, if_neg (h s (List.mem_cons_self ..)).1, ih (fun x hx => h x (List.mem_cons_of_mem _ hx))]
    rfl

theorem nav_kids (p : List Str) (n : Node) : (nav (p.map Edge.kid) n).bind (·.retained) = retAt p n := by
  induction p generalizing n with
  | nil => rfl
  | cons s t ih =>
    simp only [List.map_cons, nav, retAt]
    cases mget n.children s with
    | none => rfl
    | some c => exact ih c

theorem plain_hashLast {p : List Str} (h : ∀ s ∈ p, s ≠ plusS ∧ s ≠ hashS) : hashLast p = true := by
  induction p with
  | nil => rfl
  | cons s t ih =>
    cases t with
    | nil => rfl
    | cons a b =>
      simp only [hashLast, Bool.and_eq_true, decide_eq_true_eq]
      exact ⟨(h s (List.mem_cons_self ..)).2, ih (fun x hx => h x (List.mem_cons_of_mem _ hx))⟩

theorem all_kids {es : List Edge} (h : ∀ e ∈ es, ∃ s, e = .kid s) : ∃ p : List Str, es = p.map Edge.kid := by
  induction es with
  | nil => exact ⟨[], rfl⟩
  | cons e es ih =>
    obtain ⟨s, rfl⟩ := h e (List.mem_cons_self ..)
    obtain ⟨p, rfl⟩ := ih (fun x hx => h x (List.mem_cons_of_mem _ hx))
    exact ⟨s :: p, rfl⟩

/-! ## Every node is shown once -/

mutual
/-- All nodes with the edges to them, in the order of the traversal. -/
def nodes : Node → List (List Edge × List Cid × Option Retained)
  | .mk ch p h s r => ([], s, r) :: (nodesK ch ++ nodesO .plus p ++ nodesO .hash h)
def nodesK : List (Str × Node) → List (List Edge × List Cid × Option Retained)
  | [] => []
  | (k, n) :: t => (nodes n).map (fun e => (.kid k :: e.1, e.2)) ++ nodesK t
def nodesO (e : Edge) : Option Node → List (List Edge × List Cid × Option Retained)
  | none => []
  | some n => (nodes n).map (fun x => (e :: x.1, x.2))
end

theorem nodesK_eq (ch : List (Str × Node)) :
    nodesK ch = ch.flatMap (fun c => (nodes c.2).map (fun e => (.kid c.1 :: e.1, e.2))) := by
  induction ch with
  | nil => rfl
  | cons c t ih => cases c; simp [nodesK, ih]

theorem collectTopics_eq (now : Nat) (search : Option Str) (path : Str) (n : Node) :
    collectTopics now search path n = (nodes n).flatMap (fun e => topicHere now search (pathOf path (e.1.map Edge.label)) e.2.1 e.2.2) := by
  induction n using Node.indAll generalizing path with
  | h ch p hh s r ih1 ih2 ih3 =>
    simp only [collectTopics, nodes, List.flatMap_cons, List.flatMap_append, List.map_nil, pathOf, List.append_assoc]
    congr 1
    congr 1
    · rw [collectTopicsKids_eq, nodesK_eq, List.flatMap_assoc]
      rw [List.flatMap_def, List.flatMap_def]
      congr 1
      apply List.map_congr_left
      intro c hc
      rw [ih1 c hc, List.flatMap_map]
      rfl
    · congr 1
      · cases p with
        | none => rfl
        | some c => simp only [collectTopicsOpt, nodesO]; rw [ih2 c rfl, List.flatMap_map]; rfl
      · cases hh with
        | none => rfl
        | some c => simp only [collectTopicsOpt, nodesO]; rw [ih3 c rfl, List.flatMap_map]; rfl

theorem nodes_head {es : List Edge} {x : List Cid × Option Retained} {e : Edge} {o : Option Node} (h : (es, x) ∈ nodesO e o) :
    ∃ es', es = e :: es' := by
  cases o with
  | none => cases h
  | some m =>
    obtain ⟨y, _, hy⟩ := List.mem_map.mp h
    cases hy
    exact ⟨y.1, rfl⟩

theorem nodes_nodup {n : Node} (hg : ∀ es m, nav es n = some m → MWF m.children) : ((nodes n).map (·.1)).Nodup := by
  induction n using Node.indAll with
  | h ch p hh s r ih1 ih2 ih3 =>
    have hmw : MWF ch := hg [] _ rfl
    have hkid : ∀ x ∈ nodesK ch, ∃ k es', x.1 = .kid k :: es' := by
      intro x hx
      rw [nodesK_eq] at hx
      obtain ⟨c, _, hx⟩ := List.mem_flatMap.mp hx
      obtain ⟨y, _, rfl⟩ := List.mem_map.mp hx
      exact ⟨c.1, y.1, rfl⟩
    have hopt : ∀ (e : Edge) (o : Option Node), ∀ x ∈ nodesO e o, ∃ es', x.1 = e :: es' := by
      intro e o x hx
      cases o with
      | none => cases hx
      | some m =>
        obtain ⟨y, _, rfl⟩ := List.mem_map.mp hx
        exact ⟨y.1, rfl⟩
    have hoptN : ∀ (e : Edge) (o : Option Node), (∀ c, o = some c → ((nodes c).map (·.1)).Nodup) → ((nodesO e o).map (·.1)).Nodup := by
      intro e o ho
      cases o with
      | none => exact List.nodup_nil
      | some c =>
        simp only [nodesO, List.map_map]
        have := ho c rfl
        rw [List.nodup_iff_pairwise_ne, List.pairwise_map] at this ⊢
        refine this.imp ?_
        intro a b hab h
        simp only [Function.comp, List.cons.injEq, true_and] at h
        exact hab h
    have h1 : ((nodesK ch).map (·.1)).Nodup := by
      rw [nodesK_eq, List.map_flatMap]
      refine nodup_flatMap ?_ ?_
      · intro c hc
        have hk : mget ch c.1 = some c.2 := hmw.mem_iff.mp hc
        have := ih1 c hc (fun es m hm => hg (.kid c.1 :: es) m (by simp only [nav, Node.children, hk]; exact hm))
        simp only [List.map_map]
        rw [List.nodup_iff_pairwise_ne, List.pairwise_map] at this ⊢
        refine this.imp ?_
        intro a b hab h
        simp only [Function.comp, List.cons.injEq, true_and] at h
        exact hab h
      · have hp : ch.Pairwise (fun a b => a.1 ≠ b.1) := by
          have := hmw
          unfold MWF at this
          rwa [List.nodup_iff_pairwise_ne, List.pairwise_map] at this
        refine hp.imp ?_
        intro a b hab x hx hy
        simp only [List.map_map, List.mem_map, Function.comp] at hx hy
        obtain ⟨y, _, rfl⟩ := hx
        obtain ⟨z, _, hz⟩ := hy
        simp only [List.cons.injEq, Edge.kid.injEq] at hz
        exact hab hz.1.symm
    have h2 := hoptN .plus p (fun c hc => ih2 c hc (fun es m hm => hg (.plus :: es) m (by simp only [nav, Node.plus, hc]; exact hm)))
    have h3 := hoptN .hash hh (fun c hc => ih3 c hc (fun es m hm => hg (.hash :: es) m (by simp only [nav, Node.hash, hc]; exact hm)))
    simp only [nodes, List.map_cons, List.map_append, List.nodup_cons, List.mem_append, List.mem_map, not_or]
    refine ⟨⟨⟨?_, ?_⟩, ?_⟩, ?_⟩
    · rintro ⟨x, hx, h⟩; obtain ⟨k, es', h'⟩ := hkid x hx; rw [h'] at h; cases h
    · rintro ⟨x, hx, h⟩; obtain ⟨es', h'⟩ := hopt _ _ x hx; rw [h'] at h; cases h
    · rintro ⟨x, hx, h⟩; obtain ⟨es', h'⟩ := hopt _ _ x hx; rw [h'] at h; cases h
    · rw [List.nodup_append, List.nodup_append]
      refine ⟨⟨h1, h2, ?_⟩, h3, ?_⟩
      · intro a ha b hb hab
        obtain ⟨x, hx, rfl⟩ := List.mem_map.mp ha
        obtain ⟨y, hy, rfl⟩ := List.mem_map.mp hb
        obtain ⟨k, es', h'⟩ := hkid x hx
        obtain ⟨es'', h''⟩ := hopt _ _ y hy
        rw [h', h''] at hab; cases hab
      · intro a ha b hb hab
        obtain ⟨y, hy, rfl⟩ := List.mem_map.mp hb
        obtain ⟨es'', h''⟩ := hopt _ _ y hy
        rcases List.mem_append.mp ha with ha | ha
        · obtain ⟨x, hx, rfl⟩ := List.mem_map.mp ha
          obtain ⟨k, es', h'⟩ := hkid x hx
          rw [h', h''] at hab; cases hab
        · obtain ⟨x, hx, rfl⟩ := List.mem_map.mp ha
          obtain ⟨es', h'⟩ := hopt _ _ x hx
          rw [h', h''] at hab; cases hab

theorem mem_nodes {n : Node} (hg : ∀ es m, nav es n = some m → MWF m.children) {x : List Edge × List Cid × Option Retained} (h : x ∈ nodes n) :
    ∃ m, nav x.1 n = some m ∧ x.2 = (m.subs, m.retained) := by
  induction n using Node.indAll generalizing x with
  | h ch p hh s r ih1 ih2 ih3 =>
    have hmw : MWF ch := hg [] _ rfl
    simp only [nodes, List.mem_cons, List.mem_append] at h
    rcases h with rfl | (h | h) | h
    · exact ⟨_, rfl, rfl⟩
    · rw [nodesK_eq] at h
      obtain ⟨c, hc, h⟩ := List.mem_flatMap.mp h
      obtain ⟨y, hy, rfl⟩ := List.mem_map.mp h
      have hk : mget ch c.1 = some c.2 := hmw.mem_iff.mp hc
      obtain ⟨m, h1, h2⟩ := ih1 c hc (fun es m hm => hg (.kid c.1 :: es) m (by simp only [nav, Node.children, hk]; exact hm)) hy
      exact ⟨m, by simp only [nav, Node.children, hk]; exact h1, h2⟩
    · cases p with
      | none => cases h
      | some c =>
        obtain ⟨y, hy, rfl⟩ := List.mem_map.mp h
        obtain ⟨m, h1, h2⟩ := ih2 c rfl (fun es m hm => hg (.plus :: es) m hm) hy
        exact ⟨m, h1, h2⟩
    · cases hh with
      | none => cases h
      | some c =>
        obtain ⟨y, hy, rfl⟩ := List.mem_map.mp h
        obtain ⟨m, h1, h2⟩ := ih3 c rfl (fun es m hm => hg (.hash :: es) m hm) hy
        exact ⟨m, h1, h2⟩

theorem topicHere_le (now : Nat) (search : Option Str) (path : Str) (subs : List Cid) (r : Option Retained) :
    (topicHere now search path subs r).length ≤ 1 ∧ ∀ x ∈ topicHere now search path subs r, x.path = path ∧ x.path ≠ [] ∧ (subs ≠ [] ∨ r.isSome) := by
  unfold topicHere
  split
  · exact ⟨by simp, fun x hx => nomatch hx⟩
  · next hp =>
    split
    · next h =>
      refine ⟨by simp, ?_⟩
      intro x hx
      simp only [List.mem_singleton] at hx
      subst hx
      refine ⟨rfl, by simpa using hp, ?_⟩
      simp only [Bool.and_eq_true, Bool.or_eq_true, Bool.not_eq_true', List.isEmpty_eq_false_iff] at h
      exact h.2
    · exact ⟨by simp, fun x hx => nomatch hx⟩

/-! ### Clients -/

theorem subscribed_connected {c : Cid} {p : Str} {l : List Op} (h : subscribedRev c p l = true) : connectedRev c l = true := by
  induction l with
  | nil => cases h
  | cons o l ih =>
    cases o <;> simp only [subscribedRev, connectedRev, Bool.or_eq_true, Bool.and_eq_true, decide_eq_true_eq, Bool.not_eq_true'] at h ⊢
    · exact .inr (ih h)
    · exact ⟨h.1, ih h.2⟩
    · exact ⟨h.1, ih h.2⟩
    · rcases h with h | h
      · exact h.2
      · exact ih h
    · exact ih h.2
    · exact ih h
    · exact ih h
    · exact ih h

theorem zombies_none {s : State} (hs : ∀ c info, mget s.clients c = some info → info.alive = true) (topic : Str) (data : Bytes) :
    (deliver s topic data).1.clients = s.clients := by
  simp only [deliver]
  have : ∀ l : List Cid, (∀ c ∈ l, mget s.clients c = none) → (l.foldl disconnect s).clients = s.clients := by
    intro l
    induction l with
    | nil => intro _; rfl
    | cons c l ih =>
      intro h
      have h1 : disconnect s c = s := by unfold disconnect; rw [h c (List.mem_cons_self ..)]
      rw [List.foldl_cons, h1]
      exact ih (fun d hd => h d (List.mem_cons_of_mem _ hd))
  refine this _ ?_
  intro c hc
  have h2 := (List.mem_filter.mp hc).2
  cases hg : mget s.clients c with
  | none => rfl
  | some info =>
    simp only [reaches, hg, hs c info hg] at h2
    cases h2

structure ClientsInv (s : State) (h : List Op) : Prop where
  wf : MWF s.clients
  alive : ∀ c info, mget s.clients c = some info → info.alive = true
  conn : ∀ c, (mget s.clients c).isSome ↔ connectedRev c h = true
  subs : ∀ c info, mget s.clients c = some info → info.subscriptions.Nodup ∧ ∀ p, p ∈ info.subscriptions ↔ subscribedRev c p h = true

theorem ClientsInv.congr {s s' : State} {h h' : List Op} (hi : ClientsInv s h) (hc : s'.clients = s.clients)
    (h1 : ∀ c, connectedRev c h' = connectedRev c h) (h2 : ∀ c p, subscribedRev c p h' = subscribedRev c p h) : ClientsInv s' h' := by
  refine ⟨hc ▸ hi.wf, hc ▸ hi.alive, ?_, ?_⟩
  · intro c; rw [hc, h1]; exact hi.conn c
  · intro c info hg; rw [hc] at hg; simp only [h2]; exact hi.subs c info hg

theorem ClientsInv.step {dflt : Nat} {s : State} {h : List Op} (hi : ClientsInv s h) (o : Op) (hn : (connects (o :: h)).Nodup)
    (hd : ∀ c, o ≠ .drop c) : ClientsInv (step dflt s o).1 (o :: h) := by
  cases o with
  | connect d =>
    simp only [PubSub.step]
    refine ⟨hi.wf.mset _ _, ?_, ?_, ?_⟩
    · intro c info hg
      rw [mget_mset] at hg
      split at hg
      · cases hg; rfl
      · exact hi.alive c info hg
    · intro c
      rw [mget_mset]
      simp only [connectedRev, Bool.or_eq_true, decide_eq_true_eq]
      split
      · next he => exact ⟨fun _ => .inl he.symm, fun _ => rfl⟩
      · next he => rw [hi.conn c]; exact ⟨.inr, fun hh => hh.resolve_left (fun hh => he hh.symm)⟩
    · intro c info hg
      rw [mget_mset] at hg
      split at hg
      · next he =>
        cases hg
        refine ⟨List.nodup_nil, fun p => ⟨(fun hp => nomatch hp), fun hp => ?_⟩⟩
        exfalso
        have := connected_mem (subscribed_connected (show subscribedRev c p h = true from hp))
        rw [he] at this
        exact (List.nodup_cons.mp (show (d :: connects h).Nodup from hn)).1 this
      · exact hi.subs c info hg
  | drop d => exact absurd rfl (hd d)
  | disconnect d =>
    simp only [PubSub.step, disconnect]
    have hcase : ∀ s' : State, (∀ c, mget s'.clients c = if c = d then none else mget s.clients c) → MWF s'.clients → ClientsInv s' (.disconnect d :: h) := by
      intro s' hs' hw
      refine ⟨hw, ?_, ?_, ?_⟩
      · intro c info hg
        rw [hs'] at hg
        split at hg
        · cases hg
        · exact hi.alive c info hg
      · intro c
        rw [hs']
        simp only [connectedRev, Bool.and_eq_true, decide_eq_true_eq]
        split
        · next he => simp [he]
        · next he => rw [hi.conn c]; exact ⟨fun hh => ⟨fun e => he e.symm, hh⟩, fun hh => hh.2⟩
      · intro c info hg
        rw [hs'] at hg
        split at hg
        · cases hg
        · next he =>
          refine ⟨(hi.subs c info hg).1, fun p => ?_⟩
          rw [(hi.subs c info hg).2 p]
          simp only [subscribedRev, Bool.and_eq_true, decide_eq_true_eq]
          exact ⟨fun hh => ⟨fun e => he e.symm, hh⟩, fun hh => hh.2⟩
    cases hg : mget s.clients d with
    | some info => exact hcase _ (fun c => by show mget (mdel s.clients d) c = _; rw [mget_mdel]) (hi.wf.mdel d)
    | none =>
      refine hcase s (fun c => ?_) hi.wf
      by_cases he : c = d
      · rw [if_pos he, he]; exact hg
      · rw [if_neg he]
  | subscribe d p order now =>
    simp only [PubSub.step, subscribe]
    cases hg : mget s.clients d with
    | none =>
      refine hi.congr rfl (fun _ => rfl) ?_
      intro c q
      have hnc : connectedRev d h = false := by
        cases hc : connectedRev d h with
        | false => rfl
        | true => have := (hi.conn d).mpr hc; rw [hg] at this; cases this
      simp only [subscribedRev]
      by_cases hdc : d = c
      · subst hdc; simp [hnc]
      · simp [hdc]
    | some info =>
      have hcon : connectedRev d h = true := (hi.conn d).mp (by rw [hg]; rfl)
      refine ⟨?_, ?_, ?_, ?_⟩
      · exact hi.wf.mupd d (fun i => { i with subscriptions := setInsert p i.subscriptions })
      · intro c i hc
        simp only at hc
        rw [mget_mupd] at hc
        split at hc
        · cases hx : mget s.clients c with
          | none => rw [hx] at hc; cases hc
          | some j => rw [hx] at hc; cases hc; exact hi.alive c j hx
        · exact hi.alive c i hc
      · intro c
        simp only
        rw [mget_mupd]
        split
        · rw [Option.isSome_map]; exact hi.conn c
        · exact hi.conn c
      · intro c i hc
        simp only at hc
        rw [mget_mupd] at hc
        split at hc
        · next he =>
          subst he
          rw [hg] at hc
          cases hc
          refine ⟨nodup_setInsert (hi.subs _ _ hg).1, fun q => ?_⟩
          rw [mem_setInsert, (hi.subs _ _ hg).2 q]
          simp only [subscribedRev, Bool.or_eq_true, Bool.and_eq_true, decide_eq_true_eq, hcon, and_true, true_and]
          exact ⟨fun hh => hh.imp Eq.symm id, fun hh => hh.imp Eq.symm id⟩
        · next he =>
          refine ⟨(hi.subs c i hc).1, fun q => ?_⟩
          rw [(hi.subs c i hc).2 q]
          simp only [subscribedRev, Bool.or_eq_true, Bool.and_eq_true, decide_eq_true_eq]
          exact ⟨.inr, fun hh => hh.resolve_left (fun hh => he hh.1.1.symm)⟩
  | unsubscribe d p =>
    simp only [PubSub.step, unsubscribe]
    refine ⟨?_, ?_, ?_, ?_⟩
    · exact hi.wf.mupd d (fun i => { i with subscriptions := setRemove p i.subscriptions })
    · intro c i hc
      simp only at hc
      rw [mget_mupd] at hc
      split at hc
      · cases hx : mget s.clients c with
        | none => rw [hx] at hc; cases hc
        | some j => rw [hx] at hc; cases hc; exact hi.alive c j hx
      · exact hi.alive c i hc
    · intro c
      simp only
      rw [mget_mupd]
      split
      · rw [Option.isSome_map]; exact hi.conn c
      · exact hi.conn c
    · intro c i hc
      simp only at hc
      rw [mget_mupd] at hc
      split at hc
      · next he =>
        subst he
        cases hx : mget s.clients c with
        | none => rw [hx] at hc; cases hc
        | some j =>
          rw [hx] at hc
          cases hc
          refine ⟨nodup_setRemove (hi.subs _ _ hx).1, fun q => ?_⟩
          rw [mem_setRemove, (hi.subs _ _ hx).2 q]
          simp only [subscribedRev, Bool.and_eq_true, Bool.not_eq_true', Bool.and_eq_false_imp, decide_eq_true_eq, decide_eq_false_iff_not]
          exact ⟨fun hh => ⟨fun _ e => hh.2 e.symm, hh.1⟩, fun hh => ⟨hh.2, fun e => hh.1 trivial e.symm⟩⟩
      · next he =>
        refine ⟨(hi.subs c i hc).1, fun q => ?_⟩
        rw [(hi.subs c i hc).2 q]
        simp only [subscribedRev, Bool.and_eq_true, Bool.not_eq_true', Bool.and_eq_false_imp, decide_eq_true_eq]
        exact ⟨fun hh => ⟨fun e => absurd e.symm he, hh⟩, fun hh => hh.2⟩
  | publish topic data keep ttl now unixNow =>
    refine hi.congr ?_ (fun _ => rfl) (fun _ _ => rfl)
    simp only [PubSub.step, publish]
    split
    · split
      · next s' hr =>
        have hc : s'.clients = s.clients := by
          unfold retain at hr
          split at hr
          · cases hr; rfl
          · split at hr
            · cases hr; rfl
            · cases hr
        rw [zombies_none (by rw [hc]; exact hi.alive), hc]
      · rfl
    · exact zombies_none hi.alive topic data
  | cleanup now => exact hi.congr rfl (fun _ => rfl) (fun _ _ => rfl)
  | flush now ok => exact hi.congr (by simp only [PubSub.step]; split <;> rfl) (fun _ => rfl) (fun _ _ => rfl)

theorem ClientsInv.of_run {dflt : Nat} {db : List Row} {t0 u0 : Nat} (h : List Op) (hn : (connects h).Nodup) (hd : ∀ c, Op.drop c ∉ h) :
    ClientsInv (run dflt (boot db t0 u0) h).1 h.reverse := by
  suffices hh : ∀ (l g : List Op) (s : State), ClientsInv s g → (connects (l.reverse ++ g)).Nodup → (∀ c, Op.drop c ∉ l) →
      ClientsInv (run dflt s l).1 (l.reverse ++ g) by
    have := hh h [] (boot db t0 u0) ⟨List.nodup_nil, fun c i hg => (by cases hg), fun c => ⟨fun hg => (by cases hg), fun hg => (by cases hg)⟩,
      fun c i hg => (by cases hg)⟩ (by
        have hr : ∀ l : List Op, (connects l.reverse).Perm (connects l) := by
          intro l
          induction l with
          | nil => exact .refl _
          | cons o l ih =>
            have ha : ∀ a b : List Op, connects (a ++ b) = connects a ++ connects b := by
              intro a b
              induction a with
              | nil => rfl
              | cons x a ih => cases x <;> simp [connects, ih]
            rw [List.reverse_cons, ha]
            cases o <;> simp only [connects, List.append_nil] <;> first | exact ih | skip
            exact (List.perm_append_comm).trans (ih.cons _)
        rw [List.append_nil, (hr h).nodup_iff]; exact hn) hd
    rwa [List.append_nil] at this
  intro l
  induction l with
  | nil => intro g s hi _ _; exact hi
  | cons o l ih =>
    intro g s hi hn hd
    have hcut : (o :: l).reverse ++ g = l.reverse ++ (o :: g) := by simp
    rw [hcut] at hn ⊢
    have ha : ∀ a b : List Op, connects (a ++ b) = connects a ++ connects b := by
      intro a b
      induction a with
      | nil => rfl
      | cons x a ih => cases x <;> simp [connects, ih]
    refine ih (o :: g) _ (hi.step o ?_ (fun c hc => hd c (by rw [hc]; simp))) hn (fun c hc => hd c (List.mem_cons_of_mem _ hc))
    rw [ha, List.nodup_append] at hn
    exact hn.2.1

end Verif.PubSub
