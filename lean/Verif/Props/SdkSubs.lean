import Verif.Proofs.SdkSubs

/-!
# C72: subscriptions outlive connections

Whenever the connection is up and nothing is on its way, the topics for which the client has a callback are exactly those the
server has for this connection: after any number of lost connections, no subscription has been lost and none is left over.

This fails because the server handles the requests of a connection concurrently: the subscriptions that are sent again when
the connection has been made are not visible to the application, and an `unsubscribe` can overtake one of them.  It also fails
when `unsubscribe` is called twice and the topic is subscribed to again between the two answers, and when a request times out
that the server handles nevertheless.
-/

namespace Verif.PubSub.Sdk

/-- If no request times out, and `unsubscribe` is not called for a topic while an earlier request for the same topic has not been
answered, in whatever order the server handles and answers the requests.  `partial`: see above. -/
theorem C72_restored_partial (es : List LEv) (hc : Calm {} es) (hq : (Link.run {} es).quiet) (topic : Str) :
    topic ∈ (Link.run {} es).client.topics ↔ topic ∈ (Link.run {} es).subs :=
  (Agree.init.run hc).idle hq.1 topic (by simp [Link.busy, hq.2.1, hq.2.2])

/-- In every history: a callback for which `subscribe` has been answered (and no `unsubscribe` is outstanding) stays until
`unsubscribe` is called for its topic, whatever happens to the connection. -/
theorem C72_kept (es es' : List LEv) (topic : Str) (h : topic ∈ (Link.run {} es).client.topics) (hs : (Link.run {} es).settled topic)
    (hu : LEv.unsubscribe topic ∉ es') : topic ∈ (Link.run {} (es ++ es')).client.topics := by
  rw [Link.run_append]
  exact kept_run h hs hu

/-- Two subscriptions, one given up; the connection is lost while a third is on its way, and made again twice; the requests of
the last connection are handled in reverse. -/
def demo : List LEv :=
  [.subscribe [97], .subscribe [98, 47, 43], .serve 1, .serve 0, .answer 1, .answer 0, .unsubscribe [97], .serve 0, .answer 0,
   .subscribe [99], .lost, .subscribe [100], .reconnect, .serve 0, .subscribe [100], .serve 0, .answer 1, .lost,
   .reconnect, .serve 1, .answer 0, .subscribe [97], .serve 1, .answer 0, .serve 0, .answer 0]

example : Calm {} demo ∧ (Link.run {} demo).quiet ∧ (Link.run {} demo).client.topics = [[100], [97], [98, 47, 43]] ∧
    (Link.run {} demo).subs = [[98, 47, 43], [97], [100]] := by decide

example : [98, 47, 43] ∈ (Link.run {} (demo.take 6)).client.topics ∧ (Link.run {} (demo.take 6)).settled [98, 47, 43] ∧
    LEv.unsubscribe [98, 47, 43] ∉ demo.drop 6 := by decide

/-- An `unsubscribe` overtakes the subscription that was sent again: the server goes on sending messages for a topic that the
client has given up.  Every call of the application was made after the one before it was answered. -/
theorem C72_violated : ∃ es topic, (∀ id, LEv.timeout id ∉ es) ∧ (Link.run {} es).quiet ∧
    topic ∉ (Link.run {} es).client.topics ∧ topic ∈ (Link.run {} es).subs :=
  ⟨[.subscribe [97], .serve 0, .answer 0, .lost, .reconnect, .unsubscribe [97], .serve 1, .answer 0, .serve 0, .answer 0], [97],
    by simp, by decide, by decide, by decide⟩

/-- `unsubscribe` twice, and `subscribe` between the two answers: the last call has succeeded, the server has the
subscription, and the client has no callback. -/
theorem C72_violated_twice : ∃ es topic, (∀ id, LEv.timeout id ∉ es) ∧ LEv.lost ∉ es ∧ (Link.run {} es).quiet ∧
    topic ∉ (Link.run {} es).client.topics ∧ topic ∈ (Link.run {} es).subs :=
  ⟨[.subscribe [97], .serve 0, .answer 0, .unsubscribe [97], .unsubscribe [97], .serve 0, .serve 0, .answer 0, .subscribe [97], .answer 0,
    .serve 0, .answer 0], [97], by simp, by decide, by decide, by decide, by decide⟩

/-- An `unsubscribe` that times out is handled nevertheless: the client keeps its callback, and gets no messages. -/
theorem C72_violated_late : ∃ es topic, LEv.lost ∉ es ∧ (Link.run {} es).quiet ∧
    topic ∈ (Link.run {} es).client.topics ∧ topic ∉ (Link.run {} es).subs :=
  ⟨[.subscribe [97], .serve 0, .answer 0, .unsubscribe [97], .timeout 1, .serve 0, .answer 0], [97], by decide, by decide, by decide, by decide⟩

end Verif.PubSub.Sdk
