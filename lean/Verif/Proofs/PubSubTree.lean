import Verif.Spec.PubSub

/-!
# What the pattern tree contains

Subscribers are addressed by the edges that lead to their node, retained values by their levels.
-/

namespace Verif.PubSub

inductive Edge where
  | kid (s : Str)
  | plus
  | hash
  deriving DecidableEq, Repr

/-- The node reached along some edges. -/
def nav : List Edge → Node → Option Node
  | [], n => some n
  | .kid s :: es, n => match mget n.children s with | some c => nav es c | none => none
  | .plus :: es, n => match n.plus with | some c => nav es c | none => none
  | .hash :: es, n => match n.hash with | some c => nav es c | none => none

/-- Subscribers at the end of some edges. -/
def subsAt (es : List Edge) (n : Node) : List Cid :=
  match nav es n with | some m => m.subs | none => []

/-- The edges an insertion follows. -/
def edges : List Str → List Edge
  | [] => []
  | p :: t => if p = hashS then [.hash] else if p = plusS then .plus :: edges t else .kid p :: edges t

/-- The retained value at some levels. -/
def retAt : List Str → Node → Option Retained
  | [], n => n.retained
  | p :: t, n => match mget n.children p with | some c => retAt t c | none => none

theorem mem_setInsert [DecidableEq α] {a b : α} {s : List α} : b ∈ setInsert a s ↔ b = a ∨ b ∈ s := by
  unfold setInsert; split
  · next h => constructor
              · exact Or.inr
              · rintro (rfl | h')
                · exact h
                · exact h'
  · simp [or_comm]

theorem mem_setRemove [DecidableEq α] {a b : α} {s : List α} : b ∈ setRemove a s ↔ b ∈ s ∧ b ≠ a := by
  simp [setRemove]

@[simp] theorem subsAt_nil (n : Node) : subsAt [] n = n.subs := rfl
theorem subsAt_kid (s : Str) (es : List Edge) (n : Node) :
    subsAt (.kid s :: es) n = match mget n.children s with | some c => subsAt es c | none => [] := by
  unfold subsAt; rw [nav]; cases mget n.children s <;> rfl
theorem subsAt_plus (es : List Edge) (n : Node) :
    subsAt (.plus :: es) n = match n.plus with | some c => subsAt es c | none => [] := by
  unfold subsAt; rw [nav]; cases n.plus <;> rfl
theorem subsAt_hash (es : List Edge) (n : Node) :
    subsAt (.hash :: es) n = match n.hash with | some c => subsAt es c | none => [] := by
  unfold subsAt; rw [nav]; cases n.hash <;> rfl

theorem subsAt_empty (es : List Edge) : subsAt es .empty = [] := by
  cases es with
  | nil => rfl
  | cons e es => cases e <;> rfl

theorem subsAt_getD_mget (es : List Edge) (n : Node) (s : Str) :
    subsAt es ((mget n.children s).getD .empty) = subsAt (.kid s :: es) n := by
  rw [subsAt_kid]; cases mget n.children s with
  | none => exact subsAt_empty es
  | some c => rfl
theorem subsAt_getD_plus (es : List Edge) (n : Node) :
    subsAt es (n.plus.getD .empty) = subsAt (.plus :: es) n := by
  rw [subsAt_plus]; cases n.plus with
  | none => exact subsAt_empty es
  | some c => rfl
theorem subsAt_getD_hash (es : List Edge) (n : Node) :
    subsAt es (n.hash.getD .empty) = subsAt (.hash :: es) n := by
  rw [subsAt_hash]; cases n.hash with
  | none => exact subsAt_empty es
  | some c => rfl

theorem subsAt_addSub {c c' : Cid} {n : Node} {es : List Edge} :
    c' ∈ subsAt es (n.addSub c) ↔ c' ∈ subsAt es n ∨ (c' = c ∧ es = []) := by
  cases es with
  | nil => simp only [subsAt_nil, Node.addSub, Node.subs, mem_setInsert, and_true]; exact or_comm
  | cons e es => cases e <;> simp [subsAt_kid, subsAt_plus, subsAt_hash, Node.addSub, Node.children, Node.plus, Node.hash]

theorem subsAt_delSub {c c' : Cid} {n : Node} {es : List Edge} :
    c' ∈ subsAt es (n.delSub c) ↔ c' ∈ subsAt es n ∧ ¬ (c' = c ∧ es = []) := by
  cases es with
  | nil => simp [Node.delSub, Node.subs, mem_setRemove]
  | cons e es => cases e <;> simp [subsAt_kid, subsAt_plus, subsAt_hash, Node.delSub, Node.children, Node.plus, Node.hash]

/-- Insertion adds the client at the pattern's edges and changes nothing else. -/
theorem subsAt_insert {c c' : Cid} {p : List Str} {n : Node} {es : List Edge} :
    c' ∈ subsAt es (insertSub c p n) ↔ c' ∈ subsAt es n ∨ (c' = c ∧ es = edges p) := by
  induction p generalizing n es with
  | nil => simp only [insertSub, edges]; exact subsAt_addSub
  | cons part rest ih =>
    unfold insertSub edges
    split
    · -- '#'
      cases es with
      | nil => simp [Node.subs]
      | cons e es =>
        cases e with
        | kid s => simp [subsAt_kid, Node.children]
        | plus => simp [subsAt_plus, Node.plus]
        | hash =>
          rw [subsAt_hash]; simp only [Node.hash]
          rw [subsAt_addSub]
          have := subsAt_getD_hash es n
          simp only [Node.hash] at this
          rw [this]; simp
    · split
      · cases es with
        | nil => simp [Node.subs]
        | cons e es =>
          cases e with
          | kid s => simp [subsAt_kid, Node.children]
          | hash => simp [subsAt_hash, Node.hash]
          | plus =>
            rw [subsAt_plus]; simp only [Node.plus]
            rw [ih]
            have := subsAt_getD_plus es n
            simp only [Node.plus] at this
            rw [this]; simp
      · cases es with
        | nil => simp [Node.subs]
        | cons e es =>
          cases e with
          | plus => simp [subsAt_plus, Node.plus]
          | hash => simp [subsAt_hash, Node.hash]
          | kid s =>
            rw [subsAt_kid]; simp only [Node.children]
            rw [mget_mset]
            by_cases hs : s = part
            · subst hs
              simp only [if_true]
              rw [ih]
              have := subsAt_getD_mget es n s
              simp only [Node.children] at this
              rw [this]; simp
            · simp only [hs, if_false, List.cons.injEq, Edge.kid.injEq, false_and, and_false, or_false]
              rw [subsAt_kid]; rfl

theorem isEmpty_iff {n : Node} : n.isEmpty = true ↔ n = .empty := by
  cases n with
  | mk ch p h s r =>
    simp only [Node.isEmpty, Node.subs, Node.children, Node.plus, Node.hash, Node.retained, Node.empty,
      Bool.and_eq_true, List.isEmpty_iff, Option.isNone_iff_eq_none, Node.mk.injEq]
    constructor
    · rintro ⟨⟨⟨⟨h1, h2⟩, h3⟩, h4⟩, h5⟩; exact ⟨h2, h3, h4, h1, h5⟩
    · rintro ⟨h2, h3, h4, h1, h5⟩; exact ⟨⟨⟨⟨h1, h2⟩, h3⟩, h4⟩, h5⟩

theorem removeSub_snd (c : Cid) (p : List Str) (n : Node) : (removeSub c p n).2 = (removeSub c p n).1.isEmpty := by
  cases p <;> rfl

theorem subsAt_prune (n m : Node) (es : List Edge) (b : Bool) (hb : b = true → m = .empty) :
    (match (if b then none else some m : Option Node) with | some c => subsAt es c | none => []) = subsAt es m := by
  cases b with
  | false => rfl
  | true => rw [hb rfl, subsAt_empty]; rfl

/-- Removal takes the client away at the pattern's edges and changes nothing else. -/
theorem subsAt_remove {c c' : Cid} {p : List Str} {n : Node} {es : List Edge} :
    c' ∈ subsAt es (removeSub c p n).1 ↔ c' ∈ subsAt es n ∧ ¬ (c' = c ∧ es = edges p) := by
  induction p generalizing n es with
  | nil => simp only [removeSub, edges]; exact subsAt_delSub
  | cons part rest ih =>
    unfold removeSub edges
    simp only
    split
    · cases hh : n.hash with
      | none =>
        simp only
        constructor
        · intro h; refine ⟨h, ?_⟩
          rintro ⟨rfl, rfl⟩
          rw [subsAt_hash, hh] at h; simp at h
        · exact fun h => h.1
      | some hn =>
        simp only
        cases es with
        | nil => simp [Node.subs]
        | cons e es =>
          cases e with
          | kid s => simp [subsAt_kid, Node.children]
          | plus => simp [subsAt_plus, Node.plus]
          | hash =>
            rw [subsAt_hash, subsAt_hash, hh]; simp only [Node.hash]
            rw [subsAt_prune n _ _ _ isEmpty_iff.1, subsAt_delSub]; simp
    · split
      · cases hh : n.plus with
        | none =>
          simp only
          constructor
          · intro h; refine ⟨h, ?_⟩
            rintro ⟨rfl, rfl⟩
            rw [subsAt_plus, hh] at h; simp at h
          · exact fun h => h.1
        | some hn =>
          simp only
          cases es with
          | nil => simp [Node.subs]
          | cons e es =>
            cases e with
            | kid s => simp [subsAt_kid, Node.children]
            | hash => simp [subsAt_hash, Node.hash]
            | plus =>
              rw [subsAt_plus, subsAt_plus, hh]; simp only [Node.plus]
              rw [subsAt_prune n _ _ _ (fun hb => isEmpty_iff.1 (removeSub_snd c rest hn ▸ hb)), ih]; simp
      · cases hh : mget n.children part with
        | none =>
          simp only
          constructor
          · intro h; refine ⟨h, ?_⟩
            rintro ⟨rfl, rfl⟩
            rw [subsAt_kid, hh] at h; simp at h
          · exact fun h => h.1
        | some hn =>
          simp only
          cases es with
          | nil => simp [Node.subs]
          | cons e es =>
            cases e with
            | plus => simp [subsAt_plus, Node.plus]
            | hash => simp [subsAt_hash, Node.hash]
            | kid s =>
              rw [subsAt_kid, subsAt_kid]
              show (c' ∈ match mget (if (removeSub c rest hn).2 then mdel n.children part
                    else mset n.children part (removeSub c rest hn).1) s with
                  | some c => subsAt es c | none => []) ↔ _
              by_cases hs : s = part
              · subst hs
                rw [hh]
                have e1 : mget (if (removeSub c rest hn).2 then mdel n.children s else mset n.children s (removeSub c rest hn).1) s
                    = if (removeSub c rest hn).2 then none else some (removeSub c rest hn).1 := by
                  split
                  · exact mget_mdel_same _ _
                  · exact mget_mset_same _ _ _
                rw [e1, subsAt_prune n _ _ _ (fun hb => isEmpty_iff.1 (removeSub_snd c rest hn ▸ hb)), ih]; simp
              · have e1 : mget (if (removeSub c rest hn).2 then mdel n.children part else mset n.children part (removeSub c rest hn).1) s
                    = mget n.children s := by
                  split
                  · exact mget_mdel_ne _ hs
                  · exact mget_mset_ne _ _ hs
                rw [e1]; simp [hs]

theorem subsAt_setRetained {r : Option Retained} {p : List Str} {n : Node} {es : List Edge} :
    subsAt es (setRetained r p n) = subsAt es n := by
  induction p generalizing n es with
  | nil =>
    cases es with
    | nil => rfl
    | cons e es => cases e <;> simp [setRetained, subsAt_kid, subsAt_plus, subsAt_hash, Node.children, Node.plus, Node.hash]
  | cons part rest ih =>
    unfold setRetained
    cases es with
    | nil => rfl
    | cons e es =>
      cases e with
      | plus => simp [subsAt_plus, Node.plus]
      | hash => simp [subsAt_hash, Node.hash]
      | kid s =>
        rw [subsAt_kid]; simp only [Node.children]
        rw [mget_mset]
        by_cases hs : s = part
        · subst hs
          simp only [if_true]
          rw [ih]
          have := subsAt_getD_mget es n s
          simp only [Node.children] at this
          exact this
        · simp only [hs, if_false]
          rw [subsAt_kid]; rfl

/-- Routing along edges. -/
inductive EMatch : List Edge → List Str → Prop
  | done : EMatch [] []
  | kid {s es t} : EMatch es t → EMatch (.kid s :: es) (s :: t)
  | plus {x es t} : EMatch es t → EMatch (.plus :: es) (x :: t)
  | hash {t} : EMatch [.hash] t

/-- `match_subscribers` finds exactly the subscribers whose edges match. -/
theorem mem_matchSubs {c : Cid} {t : List Str} {n : Node} :
    c ∈ matchSubs t n ↔ ∃ es, c ∈ subsAt es n ∧ EMatch es t := by
  have hhash : ∀ n : Node, c ∈ (match n.hash with | some h => h.subs | none => []) ↔ c ∈ subsAt [.hash] n := by
    intro n; rw [subsAt_hash]; cases n.hash <;> simp
  induction t generalizing n with
  | nil =>
    unfold matchSubs
    rw [List.mem_append]
    refine (or_congr (hhash n) Iff.rfl).trans ?_
    constructor
    · rintro (h | h)
      · exact ⟨_, h, .hash⟩
      · exact ⟨[], h, .done⟩
    · rintro ⟨es, h, hm⟩
      cases hm with
      | done => exact Or.inr h
      | hash => exact Or.inl h
  | cons x t ih =>
    unfold matchSubs
    rw [List.mem_append, List.mem_append]
    refine (or_congr (or_congr (hhash n) Iff.rfl) Iff.rfl).trans ?_
    constructor
    · rintro ((h | h) | h)
      · exact ⟨_, h, .hash⟩
      · cases hc : mget n.children x with
        | none => rw [hc] at h; simp at h
        | some ch =>
          rw [hc] at h
          obtain ⟨es, h1, h2⟩ := ih.1 h
          exact ⟨.kid x :: es, by rw [subsAt_kid, hc]; exact h1, .kid h2⟩
      · cases hc : n.plus with
        | none => rw [hc] at h; simp at h
        | some ch =>
          rw [hc] at h
          obtain ⟨es, h1, h2⟩ := ih.1 h
          exact ⟨.plus :: es, by rw [subsAt_plus, hc]; exact h1, .plus h2⟩
    · rintro ⟨es, h, hm⟩
      cases hm with
      | hash => exact Or.inl (Or.inl h)
      | kid hm =>
        rw [subsAt_kid] at h
        cases hc : mget n.children x with
        | none => rw [hc] at h; simp at h
        | some ch => rw [hc] at h; exact Or.inl (Or.inr (ih.2 ⟨_, h, hm⟩))
      | plus hm =>
        rw [subsAt_plus] at h
        cases hc : n.plus with
        | none => rw [hc] at h; simp at h
        | some ch => rw [hc] at h; exact Or.inr (ih.2 ⟨_, h, hm⟩)

theorem plusS_ne_hashS : plusS ≠ hashS := by decide

/-- For proper patterns, the edges say what the levels say. -/
theorem ematch_edges {p t : List Str} (h : hashLast p = true) : EMatch (edges p) t ↔ Matches p t := by
  induction p generalizing t with
  | nil =>
    constructor
    · intro h; cases h; exact .done
    · intro h; cases h; exact .done
  | cons x p ih =>
    have hp : hashLast p = true := by
      cases p with
      | nil => rfl
      | cons y p => simp only [hashLast, Bool.and_eq_true] at h; exact h.2
    unfold edges
    split
    · next hx =>
      subst hx
      have : p = [] := by
        cases p with
        | nil => rfl
        | cons y p => simp [hashLast] at h
      subst this
      exact ⟨fun _ => .hash, fun _ => .hash⟩
    · next hx =>
      split
      · next hx' =>
        subst hx'
        constructor
        · intro h; cases h with | plus h => exact .plus ((ih hp).1 h)
        · intro h
          cases h with
          | level h1 h2 h3 => exact absurd rfl h1
          | plus h => exact .plus ((ih hp).2 h)
      · next hx' =>
        constructor
        · intro h; cases h with | kid h => exact .level hx' hx ((ih hp).1 h)
        · intro h
          cases h with
          | level h1 h2 h3 => exact .kid ((ih hp).2 h3)
          | plus h => exact absurd rfl hx'
          | hash => exact absurd rfl hx

theorem edges_inj {p q : List Str} (hp : hashLast p = true) (hq : hashLast q = true) (h : edges p = edges q) :
    p = q := by
  induction p generalizing q with
  | nil =>
    cases q with
    | nil => rfl
    | cons y q =>
      unfold edges at h
      split at h
      · cases h
      · split at h <;> cases h
  | cons x p ih =>
    have hp' : hashLast p = true := by
      cases p with
      | nil => rfl
      | cons y p => simp only [hashLast, Bool.and_eq_true] at hp; exact hp.2
    cases q with
    | nil =>
      unfold edges at h
      split at h
      · cases h
      · split at h <;> cases h
    | cons y q =>
      have hq' : hashLast q = true := by
        cases q with
        | nil => rfl
        | cons y p => simp only [hashLast, Bool.and_eq_true] at hq; exact hq.2
      have tailnil : ∀ l : List Str, hashLast (hashS :: l) = true → l = [] := by
        intro l hl
        cases l with
        | nil => rfl
        | cons z l => simp [hashLast] at hl
      unfold edges at h
      by_cases hx : x = hashS
      · subst hx
        simp only [if_true] at h
        by_cases hy : y = hashS
        · subst hy; rw [tailnil p hp, tailnil q hq]
        · rw [if_neg hy] at h; split at h <;> cases h
      · rw [if_neg hx] at h
        by_cases hy : y = hashS
        · subst hy; simp only [if_true] at h; split at h <;> cases h
        · rw [if_neg hy] at h
          by_cases hx' : x = plusS
          · rw [if_pos hx'] at h
            by_cases hy' : y = plusS
            · rw [if_pos hy'] at h
              simp only [List.cons.injEq, true_and] at h
              rw [ih hp' hq' h, hx', hy']
            · rw [if_neg hy'] at h; cases h
          · rw [if_neg hx'] at h
            by_cases hy' : y = plusS
            · rw [if_pos hy'] at h; cases h
            · rw [if_neg hy'] at h
              simp only [List.cons.injEq, Edge.kid.injEq] at h
              rw [ih hp' hq' h.2, h.1]

/-! ### Retained values -/

theorem retAt_empty (p : List Str) : retAt p .empty = none := by cases p <;> rfl

theorem retAt_cons (s : Str) (p : List Str) (n : Node) :
    retAt (s :: p) n = match mget n.children s with | some c => retAt p c | none => none := rfl

theorem retAt_getD (s : Str) (p : List Str) (n : Node) :
    retAt p ((mget n.children s).getD .empty) = retAt (s :: p) n := by
  rw [retAt_cons]
  cases mget n.children s with
  | none => exact retAt_empty p
  | some c => rfl

theorem retAt_setRetained {r : Option Retained} {p q : List Str} {n : Node} :
    retAt q (setRetained r p n) = if q = p then r else retAt q n := by
  induction p generalizing n q with
  | nil =>
    cases q with
    | nil => rfl
    | cons x q => simp [setRetained, retAt, Node.children]
  | cons part rest ih =>
    unfold setRetained
    cases q with
    | nil => simp [retAt, Node.retained]
    | cons x q =>
      rw [retAt_cons]; simp only [Node.children]
      rw [mget_mset]
      by_cases hs : x = part
      · subst hs
        simp only [if_true, ih, List.cons.injEq, true_and]
        have := retAt_getD x q n
        simp only [Node.children] at this
        rw [this]
      · simp only [hs, if_false, List.cons.injEq, false_and]
        rw [retAt_cons]; rfl

theorem retAt_insert {c : Cid} {p q : List Str} {n : Node} : retAt q (insertSub c p n) = retAt q n := by
  induction p generalizing n q with
  | nil => cases q <;> rfl
  | cons part rest ih =>
    unfold insertSub
    split
    · cases q <;> rfl
    · split
      · cases q <;> rfl
      · cases q with
        | nil => rfl
        | cons x q =>
          rw [retAt_cons]; simp only [Node.children]
          rw [mget_mset]
          by_cases hs : x = part
          · subst hs
            simp only [if_true, ih]
            have := retAt_getD x q n
            simp only [Node.children] at this
            rw [this]
          · simp only [hs, if_false]
            rw [retAt_cons]; rfl

theorem retAt_remove {c : Cid} {p q : List Str} {n : Node} : retAt q (removeSub c p n).1 = retAt q n := by
  induction p generalizing n q with
  | nil => cases q <;> rfl
  | cons part rest ih =>
    unfold removeSub
    simp only
    split
    · cases hh : n.hash with
      | none => rfl
      | some hn => cases q <;> rfl
    · split
      · cases hh : n.plus with
        | none => rfl
        | some hn => cases q <;> rfl
      · cases hh : mget n.children part with
        | none => rfl
        | some hn =>
          simp only
          cases q with
          | nil => rfl
          | cons x q =>
            rw [retAt_cons, retAt_cons]
            show (match mget (if (removeSub c rest hn).2 then mdel n.children part
                    else mset n.children part (removeSub c rest hn).1) x with
                  | some c => retAt q c | none => none) = _
            by_cases hs : x = part
            · subst hs
              rw [hh]
              cases he : (removeSub c rest hn).2 with
              | false =>
                simp only [Bool.false_eq_true, if_false, mget_mset_same, ih]
              | true =>
                simp only [if_true, mget_mdel_same]
                rw [removeSub_snd] at he
                have h1 := isEmpty_iff.1 he
                have h2 := @ih q hn
                rw [h1, retAt_empty] at h2
                exact h2
            · have e1 : mget (if (removeSub c rest hn).2 then mdel n.children part
                  else mset n.children part (removeSub c rest hn).1) x = mget n.children x := by
                split
                · exact mget_mdel_ne _ hs
                · exact mget_mset_ne _ _ hs
              rw [e1]

/-! ### No level occurs twice below a node -/

mutual
def WF : Node → Prop
  | .mk ch _ _ _ _ => MWF ch ∧ WFK ch
def WFK : List (Str × Node) → Prop
  | [] => True
  | (_, n) :: t => WF n ∧ WFK t
end

theorem wfk_iff {ch : List (Str × Node)} : WFK ch ↔ ∀ e ∈ ch, WF e.2 := by
  induction ch with
  | nil => simp [WFK]
  | cons e t ih => cases e; simp [WFK, ih]

theorem wf_iff {n : Node} : WF n ↔ MWF n.children ∧ ∀ e ∈ n.children, WF e.2 := by
  cases n; simp only [WF, wfk_iff, Node.children]

theorem WF.empty : WF .empty := wf_iff.2 ⟨List.nodup_nil, fun _ h => nomatch h⟩

theorem WF.same {n m : Node} (h : WF n) (hc : m.children = n.children) : WF m :=
  wf_iff.2 (hc ▸ wf_iff.1 h)


theorem WF.get {n : Node} (h : WF n) {s : Str} {c : Node} (hc : mget n.children s = some c) : WF c :=
  (wf_iff.1 h).2 _ (mget_some_mem hc)

theorem WF.getD {n : Node} (h : WF n) (s : Str) : WF ((mget n.children s).getD .empty) := by
  cases hc : mget n.children s with
  | none => exact WF.empty
  | some c => exact h.get hc

theorem wf_mset {ch : List (Str × Node)} (h : MWF ch ∧ ∀ e ∈ ch, WF e.2) (s : Str) {c : Node} (hc : WF c) :
    MWF (mset ch s c) ∧ ∀ e ∈ mset ch s c, WF e.2 := by
  refine ⟨h.1.mset s c, ?_⟩
  intro e he
  simp only [mset, mdel, List.mem_append, List.mem_filter, List.mem_singleton] at he
  rcases he with he | he
  · exact h.2 _ he.1
  · rw [he]; exact hc

theorem WF.insert {c : Cid} {p : List Str} {n : Node} (h : WF n) : WF (insertSub c p n) := by
  induction p generalizing n with
  | nil => exact h.same rfl
  | cons part rest ih =>
    unfold insertSub
    split
    · exact h.same rfl
    · split
      · exact h.same rfl
      · exact wf_iff.2 (wf_mset (wf_iff.1 h) part (ih (h.getD part)))

theorem WF.remove {c : Cid} {p : List Str} {n : Node} (h : WF n) : WF (removeSub c p n).1 := by
  induction p generalizing n with
  | nil => exact h.same rfl
  | cons part rest ih =>
    unfold removeSub
    simp only
    split
    · cases n.hash <;> exact h.same rfl
    · split
      · cases n.plus <;> exact h.same rfl
      · cases hh : mget n.children part with
        | none => exact h
        | some hn =>
          simp only
          split
          · refine wf_iff.2 ⟨(wf_iff.1 h).1.mdel part, ?_⟩
            intro e he
            simp only [Node.children, mdel, List.mem_filter] at he
            exact (wf_iff.1 h).2 _ he.1
          · exact wf_iff.2 (wf_mset (wf_iff.1 h) part (ih (h.get hh)))

theorem WF.setRetained {r : Option Retained} {p : List Str} {n : Node} (h : WF n) : WF (setRetained r p n) := by
  induction p generalizing n with
  | nil => exact h.same rfl
  | cons part rest ih =>
    unfold PubSub.setRetained
    exact wf_iff.2 (wf_mset (wf_iff.1 h) part (ih (h.getD part)))

/-- Induction over the literal children. -/
theorem Node.ind {P : Node → Prop}
    (h : ∀ ch p hh s r, (∀ e ∈ ch, P e.2) → P (.mk ch p hh s r)) : ∀ n, P n
  | .mk ch p hh s r => h ch p hh s r (fun e he => Node.ind h e.2)
termination_by n => sizeOf n
decreasing_by
  simp_wf
  have := List.sizeOf_lt_of_mem he
  cases e
  simp at this ⊢
  omega

/-! ### The retained values as a list -/

/-- The value of the node itself. -/
def ownEntry : Option Retained → List (List Str × Retained)
  | some r => [([], r)]
  | none => []

mutual
/-- All retained values below a node with their levels, in the order of the traversal. -/
def entries : Node → List (List Str × Retained)
  | .mk ch _ _ _ r => ownEntry r ++ entriesK ch
def entriesK : List (Str × Node) → List (List Str × Retained)
  | [] => []
  | (k, n) :: t => (entries n).map (fun e => (k :: e.1, e.2)) ++ entriesK t
end

theorem entriesK_eq (ch : List (Str × Node)) :
    entriesK ch = ch.flatMap (fun c => (entries c.2).map (fun e => (c.1 :: e.1, e.2))) := by
  induction ch with
  | nil => rfl
  | cons c t ih => cases c; simp [entriesK, ih]

theorem collectKids_eq (now : Nat) (path : Str) (ch : List (Str × Node)) :
    collectKids now path ch = ch.flatMap (fun c => collectAll now (joinPath path c.1) c.2) := by
  induction ch with
  | nil => rfl
  | cons c t ih => cases c; simp [collectKids, ih]

/-- The path of some levels below a path. -/
def pathOf (path : Str) : List Str → Str
  | [] => path
  | s :: t => pathOf (joinPath path s) t

theorem collectAll_eq (now : Nat) (path : Str) (n : Node) :
    collectAll now path n
      = ((entries n).filter (fun e => !e.2.expired now)).map (fun e => (pathOf path e.1, e.2)) := by
  induction n using Node.ind generalizing path with
  | h ch p hh s r ih =>
    simp only [collectAll, entries, List.filter_append, List.map_append]
    congr 1
    · cases r with
      | none => rfl
      | some r => simp only [liveHere]; cases h : r.expired now <;> simp [h, pathOf, ownEntry]
    · rw [collectKids_eq, entriesK_eq, List.filter_flatMap, List.map_flatMap]
      rw [List.flatMap_def, List.flatMap_def]
      congr 1
      apply List.map_congr_left
      intro c hc
      rw [ih c hc]
      simp only [List.filter_map, List.map_map]
      rfl

/-- Does a list of levels match (boolean form of the code's reading)? -/
def matchB : List Str → List Str → Bool
  | [], t => t.isEmpty
  | x :: p, t =>
    if x = plusS then (match t with | [] => false | _ :: t => matchB p t)
    else if x = hashS then true
    else (match t with | [] => false | y :: t => decide (x = y) && matchB p t)

theorem matchB_iff {p t : List Str} (h : hashLast p = true) : matchB p t = true ↔ Matches p t := by
  induction p generalizing t with
  | nil =>
    cases t with
    | nil => exact ⟨fun _ => .done, fun _ => rfl⟩
    | cons y t => exact ⟨fun h => by simp [matchB] at h, fun h => by cases h⟩
  | cons x p ih =>
    have hp : hashLast p = true := by
      cases p with
      | nil => rfl
      | cons y p => simp only [hashLast, Bool.and_eq_true] at h; exact h.2
    unfold matchB
    by_cases hx : x = plusS
    · subst hx
      simp only [if_true]
      cases t with
      | nil => exact ⟨fun h => by simp at h, fun h => by cases h⟩
      | cons y t =>
        constructor
        · exact fun h => .plus ((ih hp).1 h)
        · intro h
          cases h with
          | level h1 _ _ => exact absurd rfl h1
          | plus h => exact (ih hp).2 h
    · rw [if_neg hx]
      by_cases hx' : x = hashS
      · subst hx'
        have : p = [] := by
          cases p with
          | nil => rfl
          | cons y p => simp [hashLast] at h
        subst this
        exact ⟨fun _ => .hash, fun _ => by simp⟩
      · rw [if_neg hx']
        cases t with
        | nil => exact ⟨fun h => by simp at h, fun h => by cases h; exact absurd rfl hx'⟩
        | cons y t =>
          simp only [Bool.and_eq_true, decide_eq_true_eq]
          constructor
          · rintro ⟨rfl, h2⟩; exact .level hx hx' ((ih hp).1 h2)
          · intro h
            cases h with
            | level h1 h2 h3 => exact ⟨rfl, (ih hp).2 h3⟩
            | plus h => exact absurd rfl hx
            | hash => exact absurd rfl hx'

theorem filter_entries_none {n : Node} {f : List Str × Retained → Bool} (k : Str)
    (h : ∀ e : List Str × Retained, f (k :: e.1, e.2) = false) :
    ((entries n).map (fun e => (k :: e.1, e.2))).filter f = [] := by
  rw [List.filter_eq_nil_iff]
  intro e he
  obtain ⟨e', _, rfl⟩ := List.mem_map.1 he
  rw [h e']; simp

theorem flatMap_only {ch : List (Str × Node)} (hw : MWF ch) {s : Str} {β : Type} (f : Str × Node → List β)
    (h0 : ∀ e ∈ ch, e.1 ≠ s → f e = []) :
    ch.flatMap f = match mget ch s with | some c => f (s, c) | none => [] := by
  induction ch with
  | nil => rfl
  | cons e t ih =>
    simp only [MWF, List.map_cons, List.nodup_cons] at hw
    rw [List.flatMap_cons, mget_cons]
    have hnil : e.1 = s → t.flatMap f = [] := by
      intro hs
      rw [List.flatMap_eq_nil_iff]
      intro x hx
      apply h0 x (List.mem_cons_of_mem _ hx)
      intro hxs
      exact hw.1 (hs.trans hxs.symm ▸ List.mem_map.2 ⟨x, hx, rfl⟩)
    by_cases hs : e.1 = s
    · rw [hnil hs, if_pos hs]; cases e; simp at hs ⊢; rw [hs]
    · rw [h0 e (List.mem_cons_self ..) hs, if_neg hs, List.nil_append]
      exact ih hw.2 (fun x hx => h0 x (List.mem_cons_of_mem _ hx))

/-- `collect_retained_for_pattern` collects exactly the live values whose levels match. -/
theorem collectPattern_eq (now : Nat) (p : List Str) (path : Str) (n : Node) (hw : WF n) :
    collectPattern now p path n
      = ((entries n).filter (fun e => matchB p e.1 && !e.2.expired now)).map (fun e => (pathOf path e.1, e.2)) := by
  induction p generalizing n path with
  | nil =>
    cases n with
    | mk ch pl hh s r =>
      simp only [collectPattern, entries, List.filter_append, List.map_append, Node.retained]
      have : (entriesK ch).filter (fun e => matchB [] e.1 && !e.2.expired now) = [] := by
        rw [entriesK_eq, List.filter_flatMap, List.flatMap_eq_nil_iff]
        intro c _
        exact filter_entries_none c.1 (fun e => by simp [matchB])
      rw [this]
      cases r with
      | none => rfl
      | some r => simp only [liveHere]; cases h : r.expired now <;> simp [h, pathOf, matchB, ownEntry]
  | cons x p ih =>
    have hw' := wf_iff.1 hw
    cases n with
    | mk ch pl hh s r =>
      simp only [Node.children] at hw'
      unfold collectPattern
      by_cases hx : x = plusS
      · subst hx
        simp only [if_true, Node.children, entries, List.filter_append, List.map_append]
        have h1 : (ownEntry r).filter
            (fun e : List Str × Retained => matchB (plusS :: p) e.1 && !e.2.expired now) = [] := by
          cases r <;> simp [ownEntry, matchB]
        rw [h1, List.map_nil, List.nil_append, entriesK_eq, List.filter_flatMap, List.map_flatMap,
          List.flatMap_def, List.flatMap_def]
        congr 1
        apply List.map_congr_left
        intro c hc
        rw [ih _ _ (hw'.2 c hc)]
        simp only [List.filter_map, List.map_map]
        have : (fun e : List Str × Retained => matchB (plusS :: p) e.1 && !e.2.expired now)
            ∘ (fun e : List Str × Retained => (c.1 :: e.1, e.2))
            = fun e => matchB p e.1 && !e.2.expired now := by
          funext e; simp [matchB]
        rw [this]; rfl
      · rw [if_neg hx]
        by_cases hx' : x = hashS
        · subst hx'
          simp only [if_true]
          rw [collectAll_eq]
          congr 1
        · rw [if_neg hx']
          simp only [Node.children, entries, List.filter_append, List.map_append]
          have h1 : (ownEntry r).filter
              (fun e : List Str × Retained => matchB (x :: p) e.1 && !e.2.expired now) = [] := by
            cases r <;> simp [ownEntry, matchB, hx, hx']
          rw [h1, List.map_nil, List.nil_append, entriesK_eq, List.filter_flatMap, List.map_flatMap]
          rw [flatMap_only hw'.1 (s := x)]
          · cases hc : mget ch x with
            | none => rfl
            | some c =>
              simp only
              rw [ih _ _ (hw'.2 _ (mget_some_mem hc))]
              simp only [List.filter_map, List.map_map]
              have : (fun e : List Str × Retained => matchB (x :: p) e.1 && !e.2.expired now)
                  ∘ (fun e : List Str × Retained => (x :: e.1, e.2))
                  = fun e => matchB p e.1 && !e.2.expired now := by
                funext e; simp [matchB, hx, hx']
              rw [this]; rfl
          · intro e _ hne
            rw [filter_entries_none]
            · rfl
            · intro e'; simp [matchB, hx, hx', Ne.symm hne]

theorem mem_entries {n : Node} (hw : WF n) {p : List Str} {r : Retained} :
    (p, r) ∈ entries n ↔ retAt p n = some r := by
  induction n using Node.ind generalizing p r with
  | h ch pl hh s r0 ih =>
    have hw' := wf_iff.1 hw
    simp only [Node.children] at hw'
    simp only [entries, List.mem_append, entriesK_eq, List.mem_flatMap, List.mem_map]
    cases p with
    | nil =>
      simp only [retAt, Node.retained]
      cases r0 with
      | none => simp [ownEntry]
      | some r0 => simp [ownEntry, eq_comm]
    | cons x p =>
      rw [retAt_cons]
      have h1 : ¬ (x :: p, r) ∈ ownEntry r0 := by
        cases r0 <;> simp [ownEntry]
      constructor
      · rintro (h | ⟨c, hc, e, he, heq⟩)
        · exact absurd h h1
        · cases heq
          have := (hw'.1.mem_iff (k := c.1) (v := c.2)).1 hc
          simp only [Node.children, this]
          exact (ih c hc (hw'.2 c hc)).1 he
      · intro h
        refine Or.inr ?_
        cases hc : mget ch x with
        | none => simp only [Node.children, hc] at h; cases h
        | some c =>
          simp only [Node.children, hc] at h
          have hm := mget_some_mem hc
          exact ⟨(x, c), hm, (p, r), (ih _ hm (hw'.2 _ hm)).2 h, rfl⟩

theorem nodup_flatMap {α β : Type} {l : List α} {f : α → List β} (h1 : ∀ a ∈ l, (f a).Nodup)
    (h2 : l.Pairwise (fun a b => ∀ x ∈ f a, x ∉ f b)) : (l.flatMap f).Nodup := by
  induction l with
  | nil => simp
  | cons a t ih =>
    rw [List.flatMap_cons, List.nodup_append]
    rw [List.pairwise_cons] at h2
    refine ⟨h1 a (List.mem_cons_self ..), ih (fun b hb => h1 b (List.mem_cons_of_mem _ hb)) h2.2, ?_⟩
    intro x hx y hy hxy
    subst hxy
    obtain ⟨b, hb, hxb⟩ := List.mem_flatMap.1 hy
    exact h2.1 b hb x hx hxb

theorem entries_nodup {n : Node} (hw : WF n) : ((entries n).map (·.1)).Nodup := by
  induction n using Node.ind with
  | h ch pl hh s r0 ih =>
    have hw' := wf_iff.1 hw
    simp only [Node.children] at hw'
    simp only [entries, List.map_append, entriesK_eq, List.map_flatMap, List.map_map]
    rw [List.nodup_append]
    refine ⟨by cases r0 <;> simp [ownEntry], ?_, ?_⟩
    · apply nodup_flatMap
      · intro c hc
        have := ih c hc (hw'.2 c hc)
        have h2 : (((entries c.2).map (·.1)).map (fun p => c.1 :: p)).Nodup := by
          rw [List.nodup_iff_pairwise_ne, List.pairwise_map]
          exact List.Pairwise.imp (fun hne h => hne (by simpa using h)) (List.nodup_iff_pairwise_ne.1 this)
        rw [List.map_map] at h2
        exact h2
      · have hnd := hw'.1
        unfold MWF at hnd
        rw [List.nodup_iff_pairwise_ne, List.pairwise_map] at hnd
        refine hnd.imp ?_
        intro a b hab x hxa hxb
        obtain ⟨_, _, rfl⟩ := List.mem_map.1 hxa
        obtain ⟨_, _, h⟩ := List.mem_map.1 hxb
        simp only [Function.comp, List.cons.injEq] at h
        exact hab h.1.symm
    · intro a ha b hb hab
      have ha' : a = [] := by cases r0 <;> simp_all [ownEntry]
      obtain ⟨c, _, hb⟩ := List.mem_flatMap.1 hb
      obtain ⟨_, _, rfl⟩ := List.mem_map.1 hb
      rw [ha'] at hab
      cases hab

/-! ### Cleanup -/

theorem mget_cleanupKids (now : Nat) (ch : List (Str × Node)) (s : Str) :
    mget (cleanupKids now ch).1 s = (mget ch s).map (fun c => (cleanup now c).1) := by
  induction ch with
  | nil => rfl
  | cons e t ih =>
    cases e with
    | mk k c =>
      simp only [cleanupKids, mget_cons, ih]
      split <;> rfl

theorem retAt_cleanup (now : Nat) (p : List Str) (n : Node) :
    retAt p (cleanup now n).1 = (retAt p n).filter (fun r => !r.expired now) := by
  induction p generalizing n with
  | nil =>
    cases n with
    | mk ch pl hh s r =>
      simp only [cleanup, retAt, Node.retained]
      cases r with
      | none => simp
      | some r => cases h : r.expired now <;> simp [h, Option.filter]
  | cons x p ih =>
    cases n with
    | mk ch pl hh s r =>
      rw [retAt_cons, retAt_cons]
      simp only [cleanup, Node.children, mget_cleanupKids]
      cases mget ch x with
      | none => rfl
      | some c => exact ih c

theorem subsAt_cleanup (now : Nat) (es : List Edge) (n : Node) : subsAt es (cleanup now n).1 = subsAt es n := by
  induction es generalizing n with
  | nil => cases n; simp [cleanup, Node.subs]
  | cons e es ih =>
    cases n with
    | mk ch pl hh s r =>
      cases e with
      | kid s =>
        rw [subsAt_kid, subsAt_kid]
        simp only [cleanup, Node.children, mget_cleanupKids]
        cases mget ch s with
        | none => rfl
        | some c => exact ih c
      | plus =>
        rw [subsAt_plus, subsAt_plus]
        simp only [cleanup, Node.plus]
        cases pl with
        | none => rfl
        | some c => exact ih c
      | hash =>
        rw [subsAt_hash, subsAt_hash]
        simp only [cleanup, Node.hash]
        cases hh with
        | none => rfl
        | some c => exact ih c

theorem cleanupKids_eq (now : Nat) (ch : List (Str × Node)) :
    (cleanupKids now ch).1 = ch.map (fun e => (e.1, (cleanup now e.2).1)) := by
  induction ch with
  | nil => rfl
  | cons e t ih => cases e; simp [cleanupKids, ih]

theorem WF.cleanup {now : Nat} {n : Node} (hw : WF n) : WF (cleanup now n).1 := by
  induction n using Node.ind with
  | h ch pl hh s r ih =>
    have hw' := wf_iff.1 hw
    simp only [Node.children] at hw'
    refine wf_iff.2 ?_
    simp only [PubSub.cleanup, Node.children, cleanupKids_eq]
    constructor
    · have := hw'.1
      unfold MWF at *
      rw [List.map_map]
      exact this
    · intro e he
      obtain ⟨c, hc, rfl⟩ := List.mem_map.1 he
      exact ih c hc (hw'.2 c hc)

theorem cleanupKids_flag (now : Nat) (ch : List (Str × Node)) :
    (cleanupKids now ch).2 = ch.any (fun e => (cleanup now e.2).2) := by
  induction ch with
  | nil => rfl
  | cons e t ih => cases e; simp [cleanupKids, ih]

/-- If the cleanup reports that it removed nothing, it removed nothing. -/
theorem cleanup_flag {now : Nat} {n : Node} (hf : (cleanup now n).2 = false) (p : List Str) :
    retAt p (cleanup now n).1 = retAt p n := by
  induction p generalizing n with
  | nil =>
    cases n with
    | mk ch pl hh s r =>
      simp only [cleanup, Bool.or_eq_false_iff] at hf
      simp only [cleanup, retAt, Node.retained, hf.1.1.1]; rfl
  | cons x p ih =>
    cases n with
    | mk ch pl hh s r =>
      rw [retAt_cons, retAt_cons]
      simp only [cleanup, Node.children, mget_cleanupKids]
      cases hc : mget ch x with
      | none => rfl
      | some c =>
        simp only [Option.map_some]
        apply ih
        simp only [cleanup, Bool.or_eq_false_iff, cleanupKids_flag, List.any_eq_false] at hf
        have := hf.1.1.2 _ (mget_some_mem hc)
        simpa using this

/-! ### Splitting -/

theorem split_ne_nil (s : Str) : split s ≠ [] := by
  cases s with
  | nil => simp [split]
  | cons c t => unfold split; split <;> simp

/-- Joining with `'/'`. -/
def joinL : List Str → Str
  | [] => []
  | [s] => s
  | s :: t => s ++ slash :: joinL t

theorem joinL_split (s : Str) : joinL (split s) = s := by
  induction s with
  | nil => rfl
  | cons c t ih =>
    unfold split
    split
    · next h =>
      have : joinL ([] :: split t) = slash :: joinL (split t) := by
        cases hs : split t with
        | nil => exact absurd hs (split_ne_nil t)
        | cons a b => simp [joinL]
      rw [this, ih, h]
    · cases hs : split t with
      | nil => exact absurd hs (split_ne_nil t)
      | cons a b =>
        rw [hs] at ih
        cases b with
        | nil => simp [joinL] at ih ⊢; exact ih
        | cons b1 b2 => simp [joinL] at ih ⊢; exact ih

theorem split_inj {s t : Str} (h : split s = split t) : s = t := by
  rw [← joinL_split s, ← joinL_split t, h]

theorem pathOf_ne_nil {path : Str} (h : path ≠ []) (l : List Str) (hl : l ≠ []) :
    pathOf path l = path ++ slash :: joinL l := by
  induction l generalizing path with
  | nil => exact absurd rfl hl
  | cons s t ih =>
    have h1 : joinPath path s = path ++ slash :: s := by simp [joinPath, h]
    unfold pathOf
    rw [h1]
    cases t with
    | nil => simp [pathOf, joinL]
    | cons a b => rw [ih (by simp) (by simp)]; simp [joinL]

theorem split_head_nil {s : Str} {t : List Str} (h : split s = [] :: t) : s = [] ∨ ∃ s', s = slash :: s' ∧ split s' = t := by
  cases s with
  | nil => exact Or.inl rfl
  | cons c s =>
    unfold split at h
    split at h
    · next hc => simp at h; exact Or.inr ⟨s, by rw [hc], h⟩
    · simp at h

theorem split_head_cons {s : Str} {a : UInt8} {x : Str} {t : List Str} (h : split s = (a :: x) :: t) :
    a ≠ slash ∧ ∃ s', s = a :: s' := by
  cases s with
  | nil => simp [split] at h
  | cons c s =>
    unfold split at h
    split at h
    · simp at h
    · next hc => simp at h; exact ⟨h.1.1 ▸ hc, s, by rw [h.1.1]⟩

/-- The label under which a retained topic is announced: leading separators are lost. -/
theorem pathOf_split (s : Str) : pathOf [] (split s) = s.dropWhile (· == slash) := by
  induction s with
  | nil => rfl
  | cons c t ih =>
    by_cases hc : c = slash
    · subst hc
      have h1 : split (slash :: t) = [] :: split t := by simp [split]
      have h2 : pathOf [] ([] :: split t) = pathOf [] (split t) := rfl
      rw [h1, h2, ih, List.dropWhile_cons]
      simp
    · have hj := joinL_split (c :: t)
      cases hs : split (c :: t) with
      | nil => exact absurd hs (split_ne_nil _)
      | cons x l =>
        cases x with
        | nil =>
          rcases split_head_nil hs with h | ⟨s', h, _⟩
          · cases h
          · simp only [List.cons.injEq] at h; exact absurd h.1 hc
        | cons a x =>
          have h1 : pathOf [] ((a :: x) :: l) = joinL ((a :: x) :: l) := by
            unfold pathOf
            have h3 : joinPath [] (a :: x) = a :: x := rfl
            rw [h3]
            cases l with
            | nil => rfl
            | cons b l => rw [pathOf_ne_nil (by simp) _ (by simp)]; rfl
          rw [h1, ← hs, hj, List.dropWhile_cons]
          simp [hc]

theorem stripLabel_dropWhile (s : Str) : stripLabel (s.dropWhile (· == slash)) = s.dropWhile (· == slash) := by
  induction s with
  | nil => rfl
  | cons c t ih =>
    rw [List.dropWhile_cons]
    split
    · exact ih
    · next h => simp [stripLabel]; intro hc; simp [hc] at h

end Verif.PubSub
