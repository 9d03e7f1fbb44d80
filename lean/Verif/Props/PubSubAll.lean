import Verif.Props.PubSub

/-!
# C18 and C20 for all topics

The code announces a retained value under its topic without the leading `/` (`C18_violated`).  Apart from this label the claims hold for every
topic: no value is missing, doubled, too old or from another topic.
-/

namespace Verif.PubSub

open Verif

/-- **C18**, all topics.  There is a list of exactly the topics that match and have a live retained value, each once; and a new subscription is
sent one message for each of them: the last value, under the topic without its leading `/`. -/
theorem C18_values (dflt : Nat) (db : List Row) (hdb : (db.map (·.1)).Nodup) (t0 u0 : Nat) (h : List Op)
    (c : Cid) (p : Str) (order : List Msg) (now : Nat) (hv : Valid t0 (h ++ [.subscribe c p order now]))
    (hp : hashLast (split p) = true) (hc : connected c h = true) :
    ∃ l : List (Str × Bytes), (l.map (·.1)).Nodup
      ∧ (∀ topic data, (topic, data) ∈ l ↔ Matches (split p) (split topic)
          ∧ ∃ k, kept dflt (baseOf db t0 u0) topic h = some k ∧ k.live now = true ∧ data = k.data)
      ∧ (answer dflt (boot db t0 u0) h (.subscribe c p order now)).sent.Perm
          (l.map (fun e => (c, ⟨e.1.dropWhile (· == slash), e.2⟩))) := by
  obtain ⟨ts, h1, h2, h3⟩ := subscription_sent (dflt := dflt) (u0 := u0) hdb hv hc
  let f : Str → Str × Bytes := fun topic => (topic, ((kept dflt (baseOf db t0 u0) topic h).map (·.data)).getD [])
  refine ⟨ts.map f, ?_, ?_, ?_⟩
  · rw [List.map_map]
    simpa [f, Function.comp_def] using h1
  · intro topic data
    rw [List.mem_map]
    constructor
    · rintro ⟨t, ht, he⟩
      obtain ⟨h4, k, h5, h6⟩ := (h2 t).1 ht
      simp only [f, h5, Option.map_some, Option.getD_some] at he
      cases he
      exact ⟨(matchB_iff hp).1 h4, k, h5, h6, rfl⟩
    · rintro ⟨h4, k, h5, h6, rfl⟩
      exact ⟨topic, (h2 topic).2 ⟨(matchB_iff hp).2 h4, k, h5, h6⟩, by simp [f, h5]⟩
  · rw [List.map_map]
    exact h3

/-- **C20**, all topics.  While its time is not over, a value is sent to a new subscriber; afterwards the new subscriber is sent what it would
be sent if the value had been cleared. -/
theorem C20_values (dflt : Nat) (db : List Row) (hdb : (db.map (·.1)).Nodup) (t0 u0 : Nat) (h g : List Op)
    (topic : Str) (data : Bytes) (ttl : Option Nat) (tp up : Nat) (c : Cid) (p : Str) (order : List Msg) (now : Nat)
    (hv : Valid t0 ((h ++ .publish topic data true ttl tp up :: g) ++ [.subscribe c p order now]))
    (hp : hashLast (split p) = true) (hc : connected c (h ++ .publish topic data true ttl tp up :: g) = true)
    (hd : data ≠ []) (hr : representable tp (ttl.getD dflt) = true)
    (hg : ∀ d t n u, .publish topic d true t n u ∉ g) (hm : Matches (split p) (split topic)) :
    (now < tp + ttl.getD dflt * second →
      (answer dflt (boot db t0 u0) (h ++ .publish topic data true ttl tp up :: g) (.subscribe c p order now)).reached
        c ⟨topic.dropWhile (· == slash), data⟩)
    ∧ (tp + ttl.getD dflt * second ≤ now →
      (answer dflt (boot db t0 u0) (h ++ .publish topic data true ttl tp up :: g) (.subscribe c p order now)).sent.Perm
      (answer dflt (boot db t0 u0) (h ++ .publish topic [] true ttl tp up :: g) (.subscribe c p order now)).sent) := by
  have hk : kept dflt (baseOf db t0 u0) topic (h ++ .publish topic data true ttl tp up :: g)
      = some ⟨data, some (tp + ttl.getD dflt * second), some (up + ttl.getD dflt)⟩ := by
    rw [kept_append, keptRev_last (fun d t n u hm => hg d t n u (List.mem_reverse.1 hm))]
    simp only [keptRev]
    rw [if_pos trivial, if_neg hd, if_pos hr]
  have hv' : Valid t0 ((h ++ .publish topic [] true ttl tp up :: g) ++ [.subscribe c p order now]) := by
    have h1 : ∀ d x, connects (h ++ .publish topic d true ttl tp up :: x) = connects h ++ connects x := fun d x => by
      rw [connects_append]; rfl
    have h2 : ∀ d x, times (h ++ .publish topic d true ttl tp up :: x) = times h ++ tp :: times x := fun d x => by
      rw [times_append]; rfl
    rw [List.append_assoc, List.cons_append] at hv ⊢
    exact ⟨(h1 _ _).symm ▸ h1 _ _ ▸ hv.fresh, (h2 _ _).symm ▸ h2 _ _ ▸ hv.clock⟩
  have hc' : connected c (h ++ .publish topic [] true ttl tp up :: g) = true := by
    rw [← hc]
    unfold connected
    rw [List.reverse_append, List.reverse_append, List.reverse_cons, List.reverse_cons, List.append_assoc, List.append_assoc]
    exact (connectedRev_skip (by rfl) g.reverse h.reverse).trans (connectedRev_skip (by rfl) g.reverse h.reverse).symm
  obtain ⟨ts, h1, h2, h3⟩ := subscription_sent (dflt := dflt) (u0 := u0) hdb hv hc
  obtain ⟨ts', h1', h2', h3'⟩ := subscription_sent (dflt := dflt) (u0 := u0) hdb hv' hc'
  constructor
  · intro hnow
    show (c, _) ∈ _
    rw [h3.mem_iff, List.mem_map]
    exact ⟨topic, (h2 topic).2 ⟨(matchB_iff hp).2 hm, _, hk, decide_eq_true hnow⟩, by rw [hk]; rfl⟩
  · intro hnow
    have hk' : kept dflt (baseOf db t0 u0) topic (h ++ .publish topic [] true ttl tp up :: g) = none := by
      rw [kept_append, keptRev_last (fun d t n u hm => hg d t n u (List.mem_reverse.1 hm))]
      simp [keptRev]
    have ho : ∀ x, x ≠ topic → kept dflt (baseOf db t0 u0) x (h ++ .publish topic data true ttl tp up :: g)
        = kept dflt (baseOf db t0 u0) x (h ++ .publish topic [] true ttl tp up :: g) := by
      intro x hx
      rw [kept_append, kept_append, keptRev_other (Ne.symm hx), keptRev_other (Ne.symm hx)]
    have hn : topic ∉ ts := by
      intro ht
      obtain ⟨_, k, h5, h6⟩ := (h2 topic).1 ht
      rw [hk] at h5
      cases h5
      have : now < tp + ttl.getD dflt * second := of_decide_eq_true h6
      omega
    have hn' : topic ∉ ts' := by
      intro ht
      obtain ⟨_, k, h5, _⟩ := (h2' topic).1 ht
      rw [hk'] at h5
      cases h5
    have hts : ts.Perm ts' := by
      rw [List.perm_ext_iff_of_nodup h1 h1']
      intro x
      by_cases hx : x = topic
      · subst hx; simp [hn, hn']
      · rw [h2, h2', ho x hx]
    refine h3.trans ((hts.map _).trans (List.Perm.trans (List.Perm.of_eq ?_) h3'.symm))
    apply List.map_congr_left
    intro x hx
    rw [ho x (fun h => hn' (h ▸ hx))]

/-! ### Cases -/

/-- Values retained for `/a`, with one second to live, and for `a`. -/
def exSlash : List Op := [.connect 1, .publish [47, 97] [1] true (some 1) 0 0, .publish [97] [2] true none 1 0]

example : Valid 0 (exSlash ++ [.subscribe 1 [35] [] 5]) ∧ connected 1 exSlash = true ∧ hashLast (split [35]) = true ∧
    (answer 60 (boot [] 0 0) exSlash (.subscribe 1 [35] [] 5)).sent.isPerm [(1, ⟨[97], [1]⟩), (1, ⟨[97], [2]⟩)] = true := by
  exact ⟨⟨by decide, by decide⟩, by decide, by decide, by decide⟩

example : (answer 60 (boot [] 0 0) exSlash (.subscribe 1 [35] [] 1000000000)).sent = [(1, ⟨[97], [2]⟩)] := by decide

end Verif.PubSub
