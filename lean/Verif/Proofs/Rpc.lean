import Verif.Spec.Rpc
import Verif.Proofs.SdkConnection

/-!
# Lemmas about clients, network and server together: bytes and tasks
-/

namespace Verif.Rpc

open Verif Verif.Wire Verif.Sdk

variable {E I : Type}

/-- The bytes of a request frame. -/
def encReq (f : Frame) : Bytes := tsFinish f.id f.op f.payload

/-- A request frame within the limits. -/
def ReqOk (f : Frame) : Prop := f.ftype = 1 ∧ f.id < 2 ^ 32 ∧ f.payload.length < 2 ^ 32

/-- A prefix of the bytes of some requests is read as a prefix of the requests. -/
theorem drain_sent (max : Nat) (b : Bytes) : ∀ (t : Bytes) (fs : List Frame), (∀ f ∈ fs, ReqOk f) → b ++ t = fs.flatMap encReq →
    ∃ rest, fs = (drain max b).frames ++ rest ∧ ((drain max b).err = false → (drain max b).rest ++ t = rest.flatMap encReq) := by
  induction b using drain_ind (max := max) with
  | h0 b hd =>
    intro t fs hok h
    rw [drain_eq, hd]
    exact ⟨fs, rfl, fun _ => h⟩
  | h1 b hd =>
    intro t fs hok h
    rw [drain_eq, hd]
    exact ⟨fs, rfl, fun he => nomatch he⟩
  | h2 b f rest hd ih =>
    intro t fs hok h
    have ha := (decode_append (max := max) (a := b) t).1 f rest hd
    cases fs with
    | nil =>
      simp only [List.flatMap_nil, List.append_eq_nil_iff] at h
      rw [h.1] at hd
      cases hd
    | cons g gs =>
      obtain ⟨h1, h2, h3⟩ := hok g (List.mem_cons_self ..)
      rw [h] at ha
      simp only [List.flatMap_cons] at ha
      have hg : g = f ∧ gs.flatMap encReq = rest ++ t := by
        by_cases hm : g.payload.length ≤ max
        · have := C01_request g.id g.op g.payload (gs.flatMap encReq) max h2 h3 hm
          rw [show encReq g = tsFinish g.id g.op g.payload from rfl, this] at ha
          injection ha with ha1 ha2
          refine ⟨?_, ha2⟩
          rw [← ha1]
          cases g; simp only at h1; subst h1; rfl
        · have := C03_refused max typeRequest g.op g.id g.payload.length (g.payload ++ gs.flatMap encReq) h3 (by omega)
          have he : encReq g ++ gs.flatMap encReq
              = typeRequest :: g.op :: (be32 g.id ++ be32 g.payload.length) ++ (g.payload ++ gs.flatMap encReq) := by
            simp [encReq, tsFinish]
          rw [he, this] at ha
          cases ha
      obtain ⟨rest', h4, h5⟩ := ih t gs (fun x hx => hok x (List.mem_cons_of_mem _ hx)) hg.2.symm
      rw [drain_eq, hd]
      refine ⟨rest', ?_, h5⟩
      rw [← hg.1]
      show g :: gs = g :: ((drain max rest).frames ++ rest')
      rw [← h4]

theorem tsDrain_ind {P : Bytes → Prop} (h0 : ∀ b, tsDecode b = none → P b)
    (h2 : ∀ b f rest, tsDecode b = some (f, rest) → P rest → P b) (b : Bytes) : P b := by
  suffices ∀ n, ∀ b : Bytes, b.length < n → P b from this (b.length + 1) b (by omega)
  intro n
  induction n with
  | zero => intro b hb; omega
  | succ n ih =>
    intro b hb
    cases hd : tsDecode b with
    | none => exact h0 b hd
    | some x =>
      have := tsDecode_length hd
      exact h2 b x.1 x.2 hd (ih x.2 (by omega))

/-- A prefix of the bytes of some answers and pushes is read as a prefix of them. -/
theorem tsDrain_sent (b : Bytes) : ∀ (t : Bytes) (os : List Outbound), (∀ o ∈ os, o.Fits) → b ++ t = os.flatMap encode →
    ∃ seen rest, os = seen ++ rest ∧ (tsDrain b).1 = seen.map Outbound.frame ∧ (tsDrain b).2 ++ t = rest.flatMap encode := by
  induction b using tsDrain_ind with
  | h0 b hd =>
    intro t os hok h
    rw [tsDrain_none hd]
    exact ⟨[], os, rfl, rfl, h⟩
  | h2 b f rest hd ih =>
    intro t os hok h
    have ha := tsDecode_append t hd
    cases os with
    | nil =>
      simp only [List.flatMap_nil, List.append_eq_nil_iff] at h
      rw [h.1] at hd
      cases hd
    | cons o os =>
      rw [h, List.flatMap_cons] at ha
      rw [(C01_round_trip o (hok o (List.mem_cons_self ..)) (os.flatMap encode)).2] at ha
      injection ha with ha
      injection ha with h1 h2
      obtain ⟨seen, rest', h3, h4, h5⟩ := ih t os (fun x hx => hok x (List.mem_cons_of_mem _ hx)) h2.symm
      rw [tsDrain_some hd]
      exact ⟨o :: seen, rest', by rw [h3]; rfl, by simp only [List.map_cons, h4, h1], h5⟩

/-! ### What the trace says about a connection -/

/-- The frame of a request. -/
def reqFrame (pr : Printer) (cmd : Cmd) (id : Nat) : Option Frame := (tsBody pr cmd).map (fun b => ⟨1, b.1, id, b.2⟩)

/-- The frame that an observation shows being written on `l`. -/
def frameOf (pr : Printer) (l : Nat) : Obs I → Option Frame
  | .called _ _ cmd (some (l', id)) => if l' = l then reqFrame pr cmd id else none
  | .fired _ cmd (some (l', id)) => if l' = l then reqFrame pr cmd id else none
  | _ => none

def sentOn (pr : Printer) (l : Nat) (tr : List (Obs I)) : List Frame := tr.filterMap (frameOf pr l)

def execOf (l : Nat) : Obs I → Option Frame
  | .executed l' f _ _ => if l' = l then some f else none
  | _ => none

def execOn (l : Nat) (tr : List (Obs I)) : List Frame := tr.filterMap (execOf l)

theorem sentOn_append (pr : Printer) (l : Nat) (a b : List (Obs I)) : sentOn pr l (a ++ b) = sentOn pr l a ++ sentOn pr l b :=
  List.filterMap_append

theorem execOn_append (l : Nat) (a b : List (Obs I)) : execOn l (a ++ b) = execOn l a ++ execOn l b := List.filterMap_append

theorem sentOn_settle (pr : Printer) (l p : Nat) (outs : List (Nat × Outcome)) : sentOn pr l (settle p outs : List (Obs I)) = [] := by
  unfold sentOn settle
  rw [List.filterMap_eq_nil_iff]
  intro o ho
  obtain ⟨x, _, rfl⟩ := List.mem_map.mp ho
  rfl

theorem execOn_settle (l p : Nat) (outs : List (Nat × Outcome)) : execOn l (settle p outs : List (Obs I)) = [] := by
  unfold execOn settle
  rw [List.filterMap_eq_nil_iff]
  intro o ho
  obtain ⟨x, _, rfl⟩ := List.mem_map.mp ho
  rfl

/-- The state of a connection agrees with the trace. -/
structure LinkInv (pr : Printer) (l : Nat) (k : Link E) (tr : List (Obs I)) : Prop where
  wire : ∃ rest, sentOn pr l tr = k.reader.frames ++ rest ∧
    (k.reader.err = false → k.reader.buf ++ k.toServer = rest.flatMap encReq)
  tasks : (execOn l tr ++ k.conn.running ++ k.conn.inbound).Perm k.reader.frames
  outs : ∀ id r, Outbound.response id r ∈ k.conn.outs →
    ∃ f now, Obs.executed l f now (some r) ∈ tr ∧ f.id = id
  fits : (∀ o ∈ k.conn.outs, o.Fits) ∧ ∀ p ∈ k.conn.pushes, p.length < 2 ^ 32

/-- Nothing in `new` concerns connection `l`. -/
theorem LinkInv.mono {pr : Printer} {l : Nat} {k : Link E} {tr : List (Obs I)} (h : LinkInv pr l k tr) {new : List (Obs I)}
    (hs : sentOn pr l new = []) (he : execOn l new = []) : LinkInv pr l k (tr ++ new) := by
  refine ⟨?_, ?_, ?_, h.fits⟩
  · rw [sentOn_append, hs, List.append_nil]; exact h.wire
  · rw [execOn_append, he, List.append_nil]; exact h.tasks
  · intro id r hm
    obtain ⟨f, now, h1, h2⟩ := h.outs id r hm
    exact ⟨f, now, List.mem_append.mpr (.inl h1), h2⟩

theorem handOn_eq (c : Conn E) (fs : List Frame) : handOn c fs = { c with inbound := c.inbound ++ fs } := by
  unfold handOn
  induction fs generalizing c with
  | nil => simp
  | cons f fs ih =>
    rw [List.foldl_cons, ih]
    simp [Conn.step]

/-- The frames a reader has handed on stay a prefix of those sent. -/
theorem feed_frames (max : Nat) (rd : Reader) (chunk : Bytes) :
    (rd.feed max chunk).frames = rd.frames ++ (rd.feed max chunk).frames.drop rd.frames.length := by
  unfold Reader.feed
  split
  · simp
  · simp

theorem LinkInv.toServer {pr : Printer} {l : Nat} {k : Link E} {tr : List (Obs I)} (h : LinkInv pr l k tr) (max n : Nat)
    (hok : ∀ f ∈ sentOn pr l tr, ReqOk f) (k' : Link E)
    (hk : k' = { k with
        toServer := k.toServer.drop n
        reader := k.reader.feed max (k.toServer.take n)
        conn := handOn k.conn ((k.reader.feed max (k.toServer.take n)).frames.drop k.reader.frames.length) }) :
    LinkInv pr l k' tr := by
  subst hk
  refine ⟨?_, ?_, ?_, ?_⟩
  · obtain ⟨rest, h1, h2⟩ := h.wire
    by_cases he : k.reader.err = true
    · have : k.reader.feed max (k.toServer.take n) = k.reader := by unfold Reader.feed; rw [if_pos he]
      simp only [this]
      exact ⟨rest, h1, fun hf => absurd he (by rw [hf]; decide)⟩
    · have he' : k.reader.err = false := by simpa using he
      have h3 := h2 he'
      rw [← List.take_append_drop n k.toServer, ← List.append_assoc] at h3
      obtain ⟨rest', h4, h5⟩ := drain_sent max _ _ rest
        (fun f hf => hok f (by rw [h1]; exact List.mem_append.mpr (.inr hf))) h3
      have hfeed : k.reader.feed max (k.toServer.take n) = ⟨k.reader.frames ++ (drain max (k.reader.buf ++ k.toServer.take n)).frames,
          (drain max (k.reader.buf ++ k.toServer.take n)).rest, (drain max (k.reader.buf ++ k.toServer.take n)).err⟩ := by
        unfold Reader.feed; rw [if_neg he]
      simp only [hfeed]
      exact ⟨rest', by rw [h1, List.append_assoc, ← h4], h5⟩
  · simp only [handOn_eq]
    rw [← List.append_assoc]
    have := feed_frames max k.reader (k.toServer.take n)
    conv => rhs; rw [this]
    exact h.tasks.append_right _
  · simp only [handOn_eq]; exact h.outs
  · simp only [handOn_eq]; exact h.fits

theorem LinkInv.write {pr : Printer} {l : Nat} {k : Link E} {tr : List (Obs I)} (h : LinkInv pr l k tr) {cmd : Cmd} {id : Nat}
    {op : UInt8} {body : Bytes} (hb : tsBody pr cmd = some (op, body)) {new : List (Obs I)}
    (hs : sentOn pr l new = [⟨1, op, id, body⟩]) (he : execOn l new = []) :
    LinkInv pr l { k with toServer := k.toServer ++ tsFinish id op body } (tr ++ new) := by
  refine ⟨?_, ?_, ?_, h.fits⟩
  · obtain ⟨rest, h1, h2⟩ := h.wire
    refine ⟨rest ++ [⟨1, op, id, body⟩], ?_, fun hf => ?_⟩
    · rw [sentOn_append, hs, h1, List.append_assoc]
    · rw [List.flatMap_append, ← h2 hf, List.append_assoc]
      simp [encReq]
  · rw [execOn_append, he, List.append_nil]; exact h.tasks
  · intro id r hm
    obtain ⟨f, now, h1, h2⟩ := h.outs id r hm
    exact ⟨f, now, List.mem_append.mpr (.inl h1), h2⟩

end Verif.Rpc
