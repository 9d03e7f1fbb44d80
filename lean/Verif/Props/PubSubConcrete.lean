import Verif.Props.PubSub

/-!
# Property C134: publishing is for concrete topics only

`/repo/docs/guide/pubsub.md:47-49`: "You can only subscribe with wildcards. Publishing must always target a concrete topic (no `+` or `#`)."
-/

namespace Verif.PubSub

/-- No level of the name is a wildcard. -/
def concrete (name : Str) : Prop := plusS ∉ split name ∧ hashS ∉ split name

instance (name : Str) : Decidable (concrete name) := inferInstanceAs (Decidable (_ ∧ _))

/-- Without wildcards a pattern stands for itself. -/
theorem matches_concrete {p t : List Str} (h : Matches p t) : plusS ∉ p → hashS ∉ p → p = t := by
  induction h with
  | done => intro _ _; rfl
  | level _ _ _ ih =>
    intro h1 h2
    rw [ih (fun h => h1 (List.mem_cons_of_mem _ h)) (fun h => h2 (List.mem_cons_of_mem _ h))]
  | plus _ _ => intro h1; exact absurd (by simp) h1
  | hash => intro _ h2; exact absurd (by simp) h2

theorem matches_self : ∀ (p : List Str), hashLast p = true → Matches p p := by
  intro p
  induction p with
  | nil => intro _; exact .done
  | cons s t ih =>
    intro h
    by_cases hh : s = hashS
    · cases t with
      | nil => rw [hh]; exact .hash
      | cons s' t' => simp [hashLast, hh] at h
    · have ht : hashLast t = true := by
        cases t with
        | nil => rfl
        | cons s' t' =>
          simp only [hashLast, Bool.and_eq_true] at h
          exact h.2
      by_cases hp : s = plusS
      · rw [hp]; exact .plus (ih ht)
      · exact .level hp hh (ih ht)

/-- **C134** (partial: such a publish is not refused, `C134_violated`).  A publish to a name with wildcards does not spread over the topics
that match it: a client that it reaches holds a subscription with wildcards; one that has only subscribed to concrete topics gets nothing.
(`hr` as in C13: a retained publish must not ask for a time to live beyond the clock's range.) -/
theorem C134_no_fan_out_partial (dflt : Nat) (db : List Row) (t0 u0 : Nat) (h : List Op) (hn : (connects h).Nodup)
    (hp : ∀ o ∈ h, o.proper = true) (topic : Str) (htopic : ¬ concrete topic) (data : Bytes) (keep : Bool) (ttl : Option Nat)
    (now unixNow : Nat) (hr : keep = true → data ≠ [] → representable now (ttl.getD dflt) = true) (c : Cid) (m : Msg)
    (hm : (answer dflt (boot db t0 u0) h (.publish topic data keep ttl now unixNow)).reached c m) :
    ∃ p, subscribed c p h = true ∧ ¬ concrete p ∧ Matches (split p) (split topic) := by
  rw [C13_publish _ _ _ _ _ hn hp _ _ _ _ _ _ hr] at hm
  obtain ⟨_, _, p, h1, h2⟩ := hm
  refine ⟨p, h1, ?_, h2⟩
  intro hc
  have he := matches_concrete h2 hc.1 hc.2
  exact htopic (by unfold concrete; rw [← he]; exact hc)

/-- The same for a publish to a concrete topic: a client without wildcards gets it exactly if it has subscribed to this very topic. -/
theorem C134_concrete (dflt : Nat) (db : List Row) (t0 u0 : Nat) (h : List Op) (hn : (connects h).Nodup)
    (hp : ∀ o ∈ h, o.proper = true) (topic : Str) (data : Bytes) (keep : Bool) (ttl : Option Nat)
    (now unixNow : Nat) (hr : keep = true → data ≠ [] → representable now (ttl.getD dflt) = true) (c : Cid)
    (hc : ∀ p, subscribed c p h = true → concrete p) :
    (answer dflt (boot db t0 u0) h (.publish topic data keep ttl now unixNow)).reached c ⟨topic, data⟩ ↔
      connected c h = true ∧ concrete topic ∧ ∃ p, subscribed c p h = true ∧ split p = split topic := by
  rw [C13_publish _ _ _ _ _ hn hp _ _ _ _ _ _ hr]
  constructor
  · rintro ⟨_, h1, p, h2, h3⟩
    have he := matches_concrete h3 (hc p h2).1 (hc p h2).2
    exact ⟨h1, by unfold concrete; rw [← he]; exact hc p h2, p, h2, he⟩
  · rintro ⟨h1, ht, p, h2, h3⟩
    refine ⟨rfl, h1, p, h2, ?_⟩
    have hpp : hashLast (split p) = true := subscribed_proper (fun o ho => hp o (List.mem_reverse.1 ho)) h2
    rw [← h3]
    exact matches_self _ hpp

/-- **C134 is violated**: a publish to a name is accepted whether it has wildcards or not (`exW` below: it has), and reaches every connected client that has subscribed to this
very name, under this name. -/
theorem C134_violated (dflt : Nat) (db : List Row) (t0 u0 : Nat) (h : List Op) (hn : (connects h).Nodup)
    (hp : ∀ o ∈ h, o.proper = true) (pattern : Str) (data : Bytes) (keep : Bool) (ttl : Option Nat)
    (now unixNow : Nat) (hr : keep = true → data ≠ [] → representable now (ttl.getD dflt) = true) (c : Cid)
    (hc : connected c h = true) (hs : subscribed c pattern h = true) :
    (answer dflt (boot db t0 u0) h (.publish pattern data keep ttl now unixNow)).reached c ⟨pattern, data⟩ := by
  rw [C13_publish _ _ _ _ _ hn hp _ _ _ _ _ _ hr]
  exact ⟨rfl, hc, pattern, hs, matches_self _ (subscribed_proper (fun o ho => hp o (List.mem_reverse.1 ho)) hs)⟩

/-- Client 1 has subscribed to `a/+`, client 2 to `a/b`. -/
def exW : List Op := [.connect 1, .connect 2, .subscribe 1 [97, 47, 43] [] 0, .subscribe 2 [97, 47, 98] [] 0]

/-- The hypotheses are met, and the violation is real: a publish to `a/+` is answered with one client reached, client 1; client 2, whose
topic matches the name, gets nothing. -/
example : (connects exW).Nodup ∧ (∀ o ∈ exW, o.proper = true) ∧ ¬ concrete [97, 47, 43] ∧ concrete [97, 47, 98] ∧ connected 1 exW = true ∧
    subscribed 1 [97, 47, 43] exW = true ∧
    (answer 60 (boot [] 0 0) exW (Pub [97, 47, 43] [1] 5 5)).sent = [(1, ⟨[97, 47, 43], [1]⟩)] := by decide

end Verif.PubSub
