import Verif.Proofs.Paths

/-!
# Names and files (C61, C64)

`accesses streams queues r` are the accesses to the file system that the request `r` leads to, `resolve cwd p` is the
place that the path `p` names in a process with working directory `cwd`.
-/

namespace Verif.Paths

open Verif

/-! ### C61: the server stays in its data directories -/

/-- **C61, proved part**: if the name does not begin with `/` and no part of it is `..`, all accesses stay inside the
configured directory.  Missing: the other names, for which the property fails (`C61_violated_parent`,
`C61_violated_absolute`). -/
theorem C61_partial (cwd : List Str) (streams queues : Str) (r : Named) (h : Tame r.name) (a : Access)
    (ha : a ∈ accesses streams queues r) : Inside (resolve cwd (r.base streams queues)) (resolve cwd a.path) := by
  have inDir : ∀ n f, Tame n → Simple f → Inside (resolve cwd streams) (resolve cwd (join (topicDir streams n) f)) := by
    intro n f hn hf
    rw [resolve_simple hf]
    exact List.IsPrefix.trans (resolve_tame hn) (List.prefix_append _ _)
  have inQueues : ∀ n s, Tame n → s ∈ suffixes → Inside (resolve cwd queues) (resolve cwd (join queues (n ++ s))) :=
    fun n s hn hs => resolve_tame (hn.grow (suffix_ok hs).1 (suffix_ok hs).2.1)
  cases r with
  | createTopic n =>
    simp only [accesses, List.mem_cons, List.not_mem_nil, or_false] at ha
    rcases ha with rfl | rfl | rfl
    · exact resolve_tame h
    · exact inDir n _ h simple_config
    · exact inDir n _ h simple_groups
  | deleteTopic n =>
    simp only [accesses, List.mem_cons, List.not_mem_nil, or_false] at ha
    rcases ha with rfl | rfl <;> exact resolve_tame h
  | topicExists n =>
    simp only [accesses, List.mem_cons, List.not_mem_nil, or_false] at ha
    subst ha; exact resolve_tame h
  | topicData n seq =>
    simp only [accesses, List.mem_cons, List.not_mem_nil, or_false] at ha
    rcases ha with rfl | rfl | rfl | rfl | rfl
    · exact resolve_tame h
    · exact inDir n _ h (simple_segment seq)
    · exact inDir n _ h (simple_segment seq)
    · exact inDir n _ h simple_tmp
    · exact inDir n _ h simple_groups
  | createQueue n =>
    simp only [accesses, List.mem_cons, List.not_mem_nil, or_false] at ha
    rcases ha with rfl | rfl | rfl | rfl <;> exact inQueues n _ h (by decide)
  | deleteQueue n =>
    simp only [accesses, List.mem_cons, List.not_mem_nil, or_false] at ha
    rcases ha with rfl | rfl | rfl | rfl <;> exact inQueues n _ h (by decide)

/-- The hypothesis is met by ordinary names, also with a `/` in the middle and with dots. -/
example : Tame [0x61, 0x2F, 0x2E, 0x2E, 0x2E, 0x62] ∧ ¬ Tame [0x61, 0x2F, 0x2E, 0x2E] := by decide

/-- **C61 does not hold**: to delete the topic `../x` removes the directory `x` beside the data directory, whatever is in
it. -/
theorem C61_violated_parent (cwd : List Str) (streams queues x : Str) (hx : Simple x) :
    ∃ p, Access.removeAll p ∈ accesses streams queues (.deleteTopic (dotdot ++ slash :: x))
      ∧ resolve cwd p = (resolve cwd streams).dropLast ++ [x]
      ∧ ((resolve cwd streams).getLast? ≠ some x → resolve cwd streams ≠ [] →
          ¬ Inside (resolve cwd streams) (resolve cwd p)) := by
  have hr : resolve cwd (topicDir streams (dotdot ++ slash :: x)) = (resolve cwd streams).dropLast ++ [x] := by
    unfold topicDir
    rw [resolve_join cwd streams _ rfl, split_append, split_simple hx.2.2.2]
    simp [split_simple (show slash ∉ dotdot by decide), enter, show dotdot ≠ [] by decide, show dotdot ≠ dot by decide, hx.1,
      hx.2.1, hx.2.2.1]
  refine ⟨topicDir streams (dotdot ++ slash :: x), by simp [accesses], hr, fun hl hne hin => ?_⟩
  rw [hr] at hin
  have hlen : (resolve cwd streams).length = ((resolve cwd streams).dropLast ++ [x]).length := by
    have := List.length_pos_iff.2 hne
    simp; omega
  have he := List.IsPrefix.eq_of_length hin hlen
  exact hl (by rw [he]; simp)

/-- **C61 does not hold**: a name that begins with `/` is taken as a path from the root; to delete such a topic removes
any directory of the machine. -/
theorem C61_violated_absolute (streams queues p : Str) (hp : isAbsolute p = true) :
    .removeAll p ∈ accesses streams queues (.deleteTopic p)
    ∧ ∀ cwd cwd', resolve cwd p = resolve cwd' p := by
  refine ⟨by simp [accesses, topicDir, join, hp], fun cwd cwd' => ?_⟩
  simp only [resolve, hp, if_true]

example : Simple [0x78] ∧ isAbsolute [slash, 0x65, 0x74, 0x63] = true
    ∧ resolve [[1], [2]] [slash, 0x65, 0x74, 0x63] = [[0x65, 0x74, 0x63]] := by decide

/-! ### C64: different names have different files -/

theorem apart_of_inside {p q a b : List Str} (h : Apart p q) (ha : Inside p a) (hb : Inside q b) : Apart a b := by
  constructor
  · intro hab
    rcases List.prefix_or_prefix_of_prefix (List.IsPrefix.trans ha hab) hb with h' | h'
    · exact h.1 h'
    · exact h.2 h'
  · intro hba
    rcases List.prefix_or_prefix_of_prefix ha (List.IsPrefix.trans hb hba) with h' | h'
    · exact h.1 h'
    · exact h.2 h'

theorem apart_siblings {d : List Str} {x y : Str} (h : x ≠ y) : Apart (d ++ [x]) (d ++ [y]) := by
  constructor <;> intro hp
  · have := List.IsPrefix.eq_of_length hp (by simp)
    simp at this; exact h this
  · have := List.IsPrefix.eq_of_length hp (by simp)
    simp at this; exact h this.symm

/-- All accesses for a topic with a simple name are to its directory. -/
theorem topic_home {cwd : List Str} {streams queues : Str} {r : Named} (h : Simple r.name) (hq : r.isQueue = false)
    {a : Access} (ha : a ∈ accesses streams queues r) : Inside (resolve cwd streams ++ [r.name]) (resolve cwd a.path) := by
  have inDir : ∀ n f, Simple n → Simple f →
      Inside (resolve cwd streams ++ [n]) (resolve cwd (join (topicDir streams n) f)) := by
    intro n f hn hf
    rw [resolve_simple hf, topicDir, resolve_simple hn]
    exact List.prefix_append _ _
  have self : ∀ n, Simple n → Inside (resolve cwd streams ++ [n]) (resolve cwd (topicDir streams n)) := by
    intro n hn
    rw [topicDir, resolve_simple hn]
    exact List.prefix_refl _
  cases r with
  | createTopic n =>
    simp only [accesses, List.mem_cons, List.not_mem_nil, or_false] at ha
    rcases ha with rfl | rfl | rfl
    · exact self n h
    · exact inDir n _ h simple_config
    · exact inDir n _ h simple_groups
  | deleteTopic n =>
    simp only [accesses, List.mem_cons, List.not_mem_nil, or_false] at ha
    rcases ha with rfl | rfl <;> exact self n h
  | topicExists n =>
    simp only [accesses, List.mem_cons, List.not_mem_nil, or_false] at ha
    subst ha; exact self n h
  | topicData n seq =>
    simp only [accesses, List.mem_cons, List.not_mem_nil, or_false] at ha
    rcases ha with rfl | rfl | rfl | rfl | rfl
    · exact self n h
    · exact inDir n _ h (simple_segment seq)
    · exact inDir n _ h (simple_segment seq)
    · exact inDir n _ h simple_tmp
    · exact inDir n _ h simple_groups
  | createQueue n => cases hq
  | deleteQueue n => cases hq

/-- All accesses for a queue with a simple name are to its four files. -/
theorem queue_home {cwd : List Str} {streams queues : Str} {r : Named} (h : Simple r.name) (hq : r.isQueue = true)
    {a : Access} (ha : a ∈ accesses streams queues r) :
    ∃ s ∈ suffixes, resolve cwd a.path = resolve cwd queues ++ [r.name ++ s] := by
  have key : ∀ n s, Simple n → s ∈ suffixes → resolve cwd (join queues (n ++ s)) = resolve cwd queues ++ [n ++ s] :=
    fun n s hn hs => resolve_simple (simple_suffix hn.2.2.2 (suffix_ok hs).1 (suffix_ok hs).2.1)
  cases r with
  | createQueue n =>
    simp only [accesses, List.mem_cons, List.not_mem_nil, or_false] at ha
    rcases ha with rfl | rfl | rfl | rfl <;> exact ⟨_, by decide, key n _ h (by decide)⟩
  | deleteQueue n =>
    simp only [accesses, List.mem_cons, List.not_mem_nil, or_false] at ha
    rcases ha with rfl | rfl | rfl | rfl <;> exact ⟨_, by decide, key n _ h (by decide)⟩
  | _ => cases hq

/-- **C64, proved part**: two topics, or two queues, whose names are different possible file names never share a file or
directory, and neither lies in a directory of the other; so nothing done to one (deletion included) touches the other.
Missing: names with `/`, `.` and the empty name, for which it fails (`C64_violated`). -/
theorem C64_partial (cwd : List Str) (streams queues : Str) (r r' : Named) (h : Simple r.name) (h' : Simple r'.name)
    (hk : r.isQueue = r'.isQueue) (hne : r.name ≠ r'.name) (a a' : Access) (ha : a ∈ accesses streams queues r)
    (ha' : a' ∈ accesses streams queues r') : Apart (resolve cwd a.path) (resolve cwd a'.path) := by
  cases hq : r.isQueue with
  | false =>
    exact apart_of_inside (apart_siblings hne) (topic_home h hq ha) (topic_home h' (hk ▸ hq) ha')
  | true =>
    obtain ⟨s, hs, e⟩ := queue_home (cwd := cwd) h hq ha
    obtain ⟨s', hs', e'⟩ := queue_home (cwd := cwd) h' (hk ▸ hq) ha'
    rw [e, e']
    exact apart_siblings (fun hh => hne (suffix_inj hs hs' hh))

/-- Topics and queues do not meet, provided that neither configured directory lies in the other. -/
theorem C64_kinds_partial (cwd : List Str) (streams queues : Str) (hd : Apart (resolve cwd streams) (resolve cwd queues))
    (r r' : Named) (h : Tame r.name) (h' : Tame r'.name) (hk : r.isQueue = false) (hk' : r'.isQueue = true) (a a' : Access)
    (ha : a ∈ accesses streams queues r) (ha' : a' ∈ accesses streams queues r') :
    Apart (resolve cwd a.path) (resolve cwd a'.path) := by
  have h1 := C61_partial cwd streams queues r h a ha
  have h2 := C61_partial cwd streams queues r' h' a' ha'
  simp only [Named.base, hk, hk', if_true, Bool.false_eq_true, if_false] at h1 h2
  exact apart_of_inside hd h1 h2

/-- `orders` and `orders.db` are different possible file names; `./data/streams` and `./data/queues` are apart. -/
example : Simple [0x6F] ∧ Simple [0x6F, 0x2E, 0x64, 0x62]
    ∧ Apart (resolve [] [0x64, 0x2F, 0x73]) (resolve [] [0x64, 0x2F, 0x71]) := by
  refine ⟨by decide, by decide, apart_siblings (d := [[0x64]]) (by decide)⟩

/-- **C64 does not hold**: to delete the topic `a` removes the segment files of the topic `a/b`; the topics `a` and `./a`
have the same files; and to delete the topic with the empty name removes the files of every topic. -/
theorem C64_violated (cwd : List Str) (streams queues : Str) (seq : Nat) (n : Str) (hn : Simple n) :
    let a : Str := [0x61]
    (∃ p q, .removeAll p ∈ accesses streams queues (.deleteTopic a)
      ∧ .use q ∈ accesses streams queues (.topicData (a ++ slash :: [0x62]) seq) ∧ Inside (resolve cwd p) (resolve cwd q))
    ∧ resolve cwd (topicDir streams a) = resolve cwd (topicDir streams (dot ++ slash :: a))
    ∧ ∃ p q, .removeAll p ∈ accesses streams queues (.deleteTopic [])
      ∧ .use q ∈ accesses streams queues (.topicData n seq) ∧ Inside (resolve cwd p) (resolve cwd q) := by
  intro a
  have hab : resolve cwd (topicDir streams (a ++ slash :: [0x62])) = resolve cwd streams ++ [a] ++ [[0x62]] := by
    unfold topicDir
    rw [resolve_join cwd streams _ rfl]
    have : split (a ++ slash :: [0x62]) = [a, [0x62]] := rfl
    rw [this]
    simp [enter, a, dot, dotdot]
  have ha : resolve cwd (topicDir streams a) = resolve cwd streams ++ [a] := resolve_simple (by decide)
  refine ⟨⟨topicDir streams a, topicDir streams (a ++ slash :: [0x62]), by simp [accesses], by simp [accesses], ?_⟩, ?_, ?_⟩
  · rw [ha, hab]; exact List.prefix_append _ _
  · rw [ha]
    unfold topicDir
    rw [resolve_join cwd streams _ rfl]
    have : split (dot ++ slash :: a) = [dot, a] := rfl
    rw [this]
    simp [enter, a, dot, dotdot]
  · refine ⟨topicDir streams [], topicDir streams n, by simp [accesses], by simp [accesses], ?_⟩
    have h0 : resolve cwd (topicDir streams []) = resolve cwd streams := by
      unfold topicDir
      rw [resolve_join cwd streams _ rfl]
      simp [split, enter]
    rw [h0, topicDir, resolve_simple hn]
    exact List.prefix_append _ _

/-- The files of a topic do not clash either: at a restart every segment file is found again with the number of its first
message, whatever that number is, and no other file of the topic is taken for a segment. -/
theorem C64_segments (n : Nat) (hn : n < 2 ^ 64) : segmentNumber (digits n ++ dotLog) = some n ∧
    segmentNumber groupsLog = none ∧ segmentNumber groupsTmp = none ∧ segmentNumber configJson = none := by
  refine ⟨?_, by decide, by decide, by decide⟩
  unfold segmentNumber
  rw [if_pos]
  · have : (digits n ++ dotLog).take ((digits n ++ dotLog).length - 4) = digits n := by
      have h4 : dotLog.length = 4 := rfl
      rw [List.length_append, h4, Nat.add_sub_cancel, List.take_left]
    rw [this]
    exact parseU64_digits hn
  · refine ⟨by simp [List.isSuffixOf_iff_suffix], fun hc => ?_⟩
    have h1 : parseU64 (digits n) = some n := parseU64_digits hn
    have h2 : digits n = [0x67, 0x72, 0x6F, 0x75, 0x70, 0x73] := by
      have : digits n ++ dotLog = [0x67, 0x72, 0x6F, 0x75, 0x70, 0x73] ++ dotLog := hc
      exact List.append_cancel_right this
    rw [h2] at h1
    revert h1
    have : parseU64 [0x67, 0x72, 0x6F, 0x75, 0x70, 0x73] = none := by decide
    rw [this]; simp

example : segmentNumber (digits 18446744073709551615 ++ dotLog) = some 18446744073709551615 :=
  (C64_segments _ (by decide)).1

end Verif.Paths
