import Verif.Proofs.DashboardUrl

/-!
# C128: the dashboard asks for what was selected
-/

namespace Verif.Dashboard

open Verif
open Verif.Rpc (ascii)

theorem takeWhile_all {p : UInt8 → Bool} : ∀ {l : Str}, (l.takeWhile p).length = l.length → ∀ c ∈ l, p c = true
  | [], _, c, hc => nomatch hc
  | a :: l, h, c, hc => by
    by_cases ha : p a = true
    · rw [List.takeWhile_cons_of_pos ha] at h
      rcases List.mem_cons.1 hc with rfl | hc
      · exact ha
      · exact takeWhile_all (by simpa using h) c hc
    · rw [List.takeWhile_cons_of_neg ha] at h
      cases h

theorem takeWhile_le {p : UInt8 → Bool} (l : Str) : (l.takeWhile p).length ≤ l.length := by
  have := congrArg List.length (List.takeWhile_append_dropWhile (p := p) (l := l))
  rw [List.length_append] at this
  omega

theorem takeWhile_of_all {p : UInt8 → Bool} {l : Str} (h : ∀ c ∈ l, p c = true) : l.takeWhile p = l := by
  have := List.takeWhile_append_of_pos (l₂ := []) h
  simpa using this

theorem takeWhile_two (l : Str) : (l.takeWhile (· != 35)).takeWhile (· != 63) = l.takeWhile (fun c => c != 35 && c != 63) := by
  induction l with
  | nil => rfl
  | cons a l ih =>
    simp only [List.takeWhile_cons]
    cases h1 : a != 35 <;> cases h2 : a != 63 <;> simp [h2, ih]

/-- What the fixed words of the addresses have in common. -/
structure Word (w : Str) : Prop where
  marks : ∀ c ∈ w, (c != 35 && c != 63) = true ∧ c ≠ 47 ∧ c ≠ 92
  clean : cleaned w = w
  enc : encodeWith pathSet w = w
  dot : isDot w = false ∧ isDotDot w = false

theorem word_api : Word (ascii "api") := ⟨by decide, by decide, by decide, by decide⟩
theorem word_queue : Word (ascii "queue") := ⟨by decide, by decide, by decide, by decide⟩
theorem word_stream : Word (ascii "stream") := ⟨by decide, by decide, by decide, by decide⟩
theorem word_messages : Word (ascii "messages") := ⟨by decide, by decide, by decide, by decide⟩

/-- `/api/w/n/messages?rest` -/
def address (w n rest : Str) : Str := 47 :: (ascii "api" ++ 47 :: (w ++ 47 :: (n ++ 47 :: (ascii "messages" ++ 63 :: rest))))

def Tame (rest : Str) : Prop := ∀ c ∈ rest, querySet c = false

theorem tame_byte (c : UInt8) (h : querySet c = false) : (!(c == 9 || c == 10 || c == 13)) = true ∧ (c != 35) = true := by
  revert c
  apply byte_all
  decide +kernel

theorem Tame.append {a b : Str} (ha : Tame a) (hb : Tame b) : Tame (a ++ b) := fun c hc => (List.mem_append.1 hc).elim (ha c) (hb c)

theorem tame_encode {s : Str} (h : Tame s) : encodeWith querySet s = s := by
  induction s with
  | nil => rfl
  | cons c s ih => rw [encode_cons (h c List.mem_cons_self), ih (fun d hd => h d (List.mem_cons_of_mem _ hd))]

theorem cleaned_append (a b : Str) : cleaned (a ++ b) = cleaned a ++ cleaned b := List.filter_append ..

theorem cleaned_address {w rest : Str} (hw : Word w) (hr : Tame rest) (n : Str) : cleaned (address w n rest) = address w (cleaned n) rest := by
  have hrest : cleaned rest = rest := List.filter_eq_self.2 (fun c hc => (tame_byte c (hr c hc)).1)
  have h47 : ∀ t, cleaned (47 :: t) = 47 :: cleaned t := fun t => rfl
  have h63 : ∀ t, cleaned (63 :: t) = 63 :: cleaned t := fun t => rfl
  simp only [address, cleaned_append, h47, h63, word_api.clean, word_messages.clean, hw.clean, hrest]

/-- The parts that the browser makes of such an address, if the name is not cut. -/
theorem browse_whole {w rest : Str} (hw : Word w) (hr : Tame rest) {n : Str} (hn : ∀ c ∈ cleaned n, (c != 35 && c != 63) = true) :
    browse (address w n rest) = { path := resolve (ascii "api" :: w :: (parts (cleaned n) ++ [ascii "messages"])), query := rest } := by
  have h1 : (address w (cleaned n) rest).takeWhile (· != 35) = address w (cleaned n) rest := by
    apply takeWhile_of_all
    intro c hc
    simp only [address, List.mem_cons, List.mem_append] at hc
    have key : ∀ {v : Str}, (∀ c ∈ v, (c != 35 && c != 63) = true ∧ c ≠ 47 ∧ c ≠ 92) → c ∈ v → (c != 35) = true :=
      fun hv hc => (Bool.and_eq_true _ _ ▸ (hv c hc).1).1
    rcases hc with rfl | hc | rfl | hc | rfl | hc | rfl | hc | rfl | hc
    · rfl
    · exact key word_api.marks hc
    · rfl
    · exact key hw.marks hc
    · rfl
    · exact (Bool.and_eq_true _ _ ▸ hn c hc).1
    · rfl
    · exact key word_messages.marks hc
    · rfl
    · exact (tame_byte c (hr c hc)).2
  have hsplit : address w (cleaned n) rest = (47 :: (ascii "api" ++ 47 :: (w ++ 47 :: (cleaned n ++ 47 :: ascii "messages")))) ++ 63 :: rest := by
    simp [address]
  have hpre : ∀ c ∈ (47 :: (ascii "api" ++ 47 :: (w ++ 47 :: (cleaned n ++ 47 :: ascii "messages"))) : Str), (c != 63) = true := by
    intro c hc
    simp only [List.mem_cons, List.mem_append] at hc
    have key : ∀ {v : Str}, (∀ c ∈ v, (c != 35 && c != 63) = true ∧ c ≠ 47 ∧ c ≠ 92) → c ∈ v → (c != 63) = true :=
      fun hv hc => (Bool.and_eq_true _ _ ▸ (hv c hc).1).2
    rcases hc with rfl | hc | rfl | hc | rfl | hc | rfl | hc
    · rfl
    · exact key word_api.marks hc
    · rfl
    · exact key hw.marks hc
    · rfl
    · exact (Bool.and_eq_true _ _ ▸ hn c hc).2
    · rfl
    · exact key word_messages.marks hc
  unfold browse
  rw [cleaned_address hw hr]
  simp only [h1]
  rw [hsplit, List.takeWhile_append_of_pos hpre, List.dropWhile_append_of_pos hpre]
  have h63 : List.takeWhile (· != 63) (63 :: rest) = [] := rfl
  have h63' : List.dropWhile (· != 63) (63 :: rest) = 63 :: rest := rfl
  rw [h63, h63', List.append_nil]
  simp only [List.drop_succ_cons, List.drop_zero, tame_encode hr]
  rw [parts_append, parts_append, parts_append, parts_simple (fun c hc => (word_api.marks c hc).2), parts_simple (fun c hc => (hw.marks c hc).2),
    parts_simple (s := ascii "messages") (fun c hc => (word_messages.marks c hc).2)]
  rfl

/-- The parts if it is cut. -/
theorem browse_cut {w rest : Str} (hw : Word w) (hr : Tame rest) {n : Str} (hn : ¬ ∀ c ∈ cleaned n, (c != 35 && c != 63) = true) :
    (browse (address w n rest)).path = resolve (ascii "api" :: w :: parts ((cleaned n).takeWhile (fun c => c != 35 && c != 63))) := by
  unfold browse
  rw [cleaned_address hw hr]
  simp only [takeWhile_two]
  have key : ∀ {v : Str} (t : Str), (∀ c ∈ v, (c != 35 && c != 63) = true ∧ c ≠ 47 ∧ c ≠ 92) →
      (v ++ t).takeWhile (fun c => c != 35 && c != 63) = v ++ t.takeWhile (fun c => c != 35 && c != 63) :=
    fun t hv => List.takeWhile_append_of_pos (fun c hc => (hv c hc).1)
  have h47 : ∀ t : Str, (47 :: t).takeWhile (fun c => c != 35 && c != 63) = 47 :: t.takeWhile (fun c => c != 35 && c != 63) := fun t => rfl
  have hcut : ∀ t, (cleaned n ++ t).takeWhile (fun c => c != 35 && c != 63) = (cleaned n).takeWhile (fun c => c != 35 && c != 63) := by
    intro t
    rw [List.takeWhile_append, if_neg (fun h => hn (takeWhile_all h))]
  simp only [address, h47, key _ word_api.marks, key _ hw.marks, hcut, List.drop_succ_cons, List.drop_zero]
  rw [parts_append, parts_append, parts_simple (fun c hc => (word_api.marks c hc).2), parts_simple (fun c hc => (hw.marks c hc).2)]
  rfl

/-- The walk over the first two parts. -/
theorem walks_words {w : Str} (hw : Word w) (ps : List Str) : (ascii "api" :: w :: ps).foldl walk [] = ps.foldl walk [ascii "api", w] := by
  have : ∀ {v : Str} (path : List Str), Word v → walk path v = path ++ [v] := by
    intro v path hv
    simp [walk, hv.dot.1, hv.dot.2, hv.enc]
  simp only [List.foldl_cons, this _ word_api, this _ hw, List.nil_append, List.singleton_append]

/-- The third part of the path that is asked for comes from the name. -/
theorem third_part {w rest : Str} (hw : Word w) (hr : Tame rest) {n x : Str} (hx : x ≠ [])
    (h : (browse (address w n rest)).path = [ascii "api", w, x, ascii "messages"]) :
    ∃ p ∈ parts ((cleaned n).takeWhile (fun c => c != 35 && c != 63)), isDot p = false ∧ isDotDot p = false ∧ x = encodeWith pathSet p := by
  by_cases hn : ∀ c ∈ cleaned n, (c != 35 && c != 63) = true
  · rw [browse_whole hw hr hn] at h
    simp only at h
    rw [show ascii "api" :: w :: (parts (cleaned n) ++ [ascii "messages"]) = (ascii "api" :: w :: parts (cleaned n)) ++ [ascii "messages"] from rfl,
      resolve_snoc, walks_words hw] at h
    have hl : ∀ path, walkLast path (ascii "messages") = path ++ [ascii "messages"] := by
      intro path
      simp [walkLast, word_messages.dot.1, word_messages.dot.2, word_messages.enc]
    rw [hl] at h
    have h' := List.append_inj' (t₁ := [ascii "messages"]) (s₂ := [ascii "api", w, x]) h rfl
    have hm : x ∈ ((parts (cleaned n)).foldl walk [ascii "api", w]).drop 2 := by rw [h'.1]; simp
    rw [show (cleaned n).takeWhile (fun c => c != 35 && c != 63) = cleaned n from takeWhile_of_all hn]
    rcases walks_mem _ hm with h | h
    · cases h
    · exact h
  · rw [browse_cut hw hr hn] at h
    generalize parts ((cleaned n).takeWhile (fun c => c != 35 && c != 63)) = ps at h
    rcases List.eq_nil_or_concat ps with rfl | ⟨qs, l, rfl⟩
    · exfalso
      have := congrArg List.length h
      have e : resolve (ascii "api" :: w :: []) = walkLast ([ascii "api"].foldl walk []) w := resolve_snoc [ascii "api"] w
      rw [e] at h
      have : walkLast ([ascii "api"].foldl walk []) w = [ascii "api", w] := by
        simp [walkLast, walk, hw.dot.1, hw.dot.2, hw.enc, word_api.dot.1, word_api.dot.2, word_api.enc]
      rw [this] at h
      simp at h
    · rw [List.concat_eq_append] at h ⊢
      rw [show ascii "api" :: w :: (qs ++ [l]) = (ascii "api" :: w :: qs) ++ [l] from rfl, resolve_snoc, walks_words hw] at h
      have hm : x ∈ (walkLast (qs.foldl walk [ascii "api", w]) l).drop 2 := by rw [h]; simp
      rcases walkLast_mem hm with h | h | h
      · rcases walks_mem _ h with h | ⟨p, hp, h⟩
        · cases h
        · exact ⟨p, List.mem_append_left _ hp, h⟩
      · exact absurd h hx
      · exact ⟨l, by simp, h⟩

theorem gentle_path : Gentle pathSet := ⟨by decide, fun c h => (hex_plain c h).1⟩

theorem mark_byte (c : UInt8) : c ∉ ascii "/\\?#\t\n\r" ↔ ((!(c == 9 || c == 10 || c == 13)) = true ∧ (c != 35 && c != 63) = true ∧ c ≠ 47 ∧ c ≠ 92) := by
  revert c
  apply byte_all
  decide +kernel

/-- Only a name that can stand in an address can be asked for by its address. -/
theorem linkable_of {w rest : Str} (hw : Word w) (hr : Tame rest) {n x : Str} (hx : x ≠ [])
    (h : (browse (address w n rest)).path = [ascii "api", w, x, ascii "messages"]) (hu : unescape x = n) : Linkable n := by
  obtain ⟨p, hp, hd, hdd, rfl⟩ := third_part hw hr hx h
  rw [unescape_encode gentle_path] at hu
  obtain ⟨l1, l2, l3⟩ := unescape_length p
  rw [hu] at l1 l2 l3
  obtain ⟨k1, k2⟩ := parts_length _ hp
  have k3 := takeWhile_le (p := fun c => c != 35 && c != 63) (cleaned n)
  have k4 : (cleaned n).length ≤ n.length := List.length_filter_le ..
  obtain ⟨e1, e2⟩ := k2 (by omega)
  have e3 := takeWhile_all (p := fun c => c != 35 && c != 63) (l := cleaned n) (by omega)
  have e4 := List.length_filter_eq_length_iff.1 (show (cleaned n).length = n.length by omega)
  have e5 : cleaned n = n := List.filter_eq_self.2 e4
  have e6 : (cleaned n).takeWhile (fun c => c != 35 && c != 63) = cleaned n := takeWhile_of_all e3
  rw [e6, e5] at e1 e2
  rw [e5] at e3
  subst e1
  refine ⟨fun h0 => hx (by rw [h0]; rfl), fun c hc => (mark_byte c).2 ⟨e4 c hc, e3 c hc, e2 c hc⟩, ⟨?_, ?_⟩, l2 rfl⟩
  · rintro rfl; exact absurd hd (by decide)
  · rintro rfl; exact absurd hdd (by decide)

/-- Conversely the address of such a name asks for it. -/
theorem linkable_path {w rest : Str} (hw : Word w) (hr : Tame rest) {n : Str} (hn : Linkable n) :
    browse (address w n rest) = { path := [ascii "api", w, encodeWith pathSet n, ascii "messages"], query := rest } ∧ encodeWith pathSet n ≠ [] ∧
      unescape (encodeWith pathSet n) = n := by
  have hb := fun c hc => (mark_byte c).1 (hn.marks c hc)
  have hc : cleaned n = n := List.filter_eq_self.2 (fun c hc => (hb c hc).1)
  have hu : unescape (encodeWith pathSet n) = n := by rw [unescape_encode gentle_path, (unescape_length n).2.2 hn.escapes]
  refine ⟨?_, fun h => ?_, hu⟩
  · rw [browse_whole hw hr (by rw [hc]; exact fun c hc => (hb c hc).2.1), hc, parts_simple (fun c hc => (hb c hc).2.2)]
    have low : ∀ (c : UInt8) (d : UInt8), (d = 46 ∨ d = 37) → (if 65 ≤ c.toNat ∧ c.toNat ≤ 90 then UInt8.ofNat (c.toNat + 32) else c) = d → c = d := by
      intro c
      revert c
      apply byte_all
      intro n d hd
      rcases hd with rfl | rfl <;> revert n <;> decide +kernel
    have low2 : ∀ (c : UInt8), (if 65 ≤ c.toNat ∧ c.toNat ≤ 90 then UInt8.ofNat (c.toNat + 32) else c) = 50 ∨
        (if 65 ≤ c.toNat ∧ c.toNat ≤ 90 then UInt8.ofNat (c.toNat + 32) else c) = 101 → IsHex c := by
      apply byte_all
      decide +kernel
    have lesc : ∀ {s : Str} (u : List UInt8) (v : List UInt8), lower s = u ++ 37 :: 50 :: 101 :: v → HasEscape s := by
      intro s u v h
      unfold lower at h
      obtain ⟨a, b, rfl, h1, h2⟩ := List.map_eq_append_iff.1 h
      obtain ⟨c1, t1, rfl, g1, h3⟩ := List.map_eq_cons_iff.1 h2
      obtain ⟨c2, t2, rfl, g2, h4⟩ := List.map_eq_cons_iff.1 h3
      obtain ⟨c3, t3, rfl, g3, h5⟩ := List.map_eq_cons_iff.1 h4
      have := low c1 37 (.inr rfl) g1
      subst this
      exact ⟨a, c2, c3, t3, rfl, low2 c2 (.inl g2), low2 c3 (.inr g3)⟩
    have hd : isDot n = false := by
      cases h : isDot n with
      | false => rfl
      | true =>
        exfalso
        simp only [isDot, Bool.or_eq_true, beq_iff_eq] at h
        rcases h with h | h
        · obtain ⟨c1, t1, e, g1, h3⟩ := List.map_eq_cons_iff.1 h
          have h4 := List.map_eq_nil_iff.1 h3
          subst h4
          exact hn.dots.1 (by rw [e, low c1 46 (.inl rfl) g1]; rfl)
        · exact hn.escapes (lesc [] [] h)
    have hdd : isDotDot n = false := by
      cases h : isDotDot n with
      | false => rfl
      | true =>
        exfalso
        simp only [isDotDot, Bool.or_eq_true, beq_iff_eq] at h
        rcases h with ((h | h) | h) | h
        · obtain ⟨c1, t1, e, g1, h3⟩ := List.map_eq_cons_iff.1 h
          obtain ⟨c2, t2, e2, g2, h4⟩ := List.map_eq_cons_iff.1 h3
          have h5 := List.map_eq_nil_iff.1 h4
          subst h5
          exact hn.dots.2 (by rw [e, e2, low c1 46 (.inl rfl) g1, low c2 46 (.inl rfl) g2]; rfl)
        · exact hn.escapes (lesc [46] [] h)
        · exact hn.escapes (lesc [] [46] h)
        · exact hn.escapes (lesc [] [37, 50, 101] h)
    have hl : ∀ path, walkLast path (ascii "messages") = path ++ [ascii "messages"] := by
      intro path
      simp [walkLast, word_messages.dot.1, word_messages.dot.2, word_messages.enc]
    congr 1
    rw [show ascii "api" :: w :: ([n] ++ [ascii "messages"]) = (ascii "api" :: w :: [n]) ++ [ascii "messages"] from rfl,
      resolve_snoc, walks_words hw, hl]
    simp [walk, hd, hdd]
  · rw [h] at hu
    exact hn.text hu.symm


/-! ### Queries -/

theorem pieces_simple {c : UInt8} {s : Str} (h : c ∉ s) : pieces c s = [s] := by
  induction s with
  | nil => rfl
  | cons b t ih =>
    simp only [pieces]
    rw [if_neg (fun e : b = c => h (e ▸ List.mem_cons_self)), ih (fun hd => h (List.mem_cons_of_mem _ hd))]

theorem pieces_append (c : UInt8) (s t : Str) : pieces c (s ++ c :: t) = pieces c s ++ pieces c t := by
  induction s with
  | nil => simp [pieces]
  | cons b s ih =>
    simp only [List.cons_append, pieces, ih]
    by_cases hb : b = c
    · simp only [if_pos hb, List.cons_append]
    · simp only [if_neg hb]
      cases hp : pieces c s with
      | nil =>
        exfalso
        cases s with
        | nil => cases hp
        | cons a t => simp only [pieces] at hp; repeat' split at hp
                      all_goals cases hp
      | cons q ps => rfl

theorem fields_append (lossy : Bytes → Str) (s t : Str) : fields lossy (s ++ 38 :: t) = fields lossy s ++ fields lossy t := by
  simp [fields, pieces_append]

theorem fields_one (lossy : Bytes → Str) {k v : Str} (hk : ∀ c ∈ k, (c != 61) = true ∧ c ≠ 38) (hv : ∀ c ∈ v, c ≠ 38) :
    fields lossy (k ++ 61 :: v) = [(formText lossy k, formText lossy v)] := by
  unfold fields
  rw [pieces_simple (fun h => by
    rcases List.mem_append.1 h with h | h
    · exact (hk _ h).2 rfl
    · rcases List.mem_cons.1 h with h | h
      · exact absurd h (by decide)
      · exact hv _ h rfl)]
  have h1 : (k ++ 61 :: v).takeWhile (· != 61) = k := by
    rw [List.takeWhile_append_of_pos (fun c hc => (hk c hc).1)]
    simp
  have h2 : (k ++ 61 :: v).dropWhile (· != 61) = 61 :: v := by
    rw [List.dropWhile_append_of_pos (fun c hc => (hk c hc).1)]
    rfl
  have h3 : ((k ++ 61 :: v).isEmpty) = false := by cases k <;> rfl
  simp only [List.filter_cons, h3, Bool.not_false, if_true, List.filter_nil, List.map_cons, List.map_nil, h1, h2, List.drop_succ_cons, List.drop_zero]

theorem ascii_valid : ∀ s : Str, (∀ c ∈ s, c.toNat < 128) → Wire.validUtf8 s = true
  | [], _ => by simp [Wire.validUtf8]
  | c :: t, h => by
    rw [Wire.validUtf8.eq_def]
    simp only [h c List.mem_cons_self, if_true]
    exact ascii_valid t (fun d hd => h d (List.mem_cons_of_mem _ hd))

/-- Bytes that stand for themselves in a query. -/
def Literal (s : Str) : Prop := ∀ c ∈ s, c.toNat < 128 ∧ c ≠ 37 ∧ c ≠ 43 ∧ c ≠ 38 ∧ querySet c = false

theorem unescape_none {s : Str} (h : ∀ c ∈ s, c ≠ 37) : unescape s = s := by
  induction s with
  | nil => rfl
  | cons c s ih => rw [unescape_plain (h c List.mem_cons_self), ih (fun d hd => h d (List.mem_cons_of_mem _ hd))]

section
variable {lossy : Bytes → Str} (hl : ∀ s, Wire.validUtf8 s = true → lossy s = s)
include hl

theorem formText_literal {s : Str} (h : Literal s) : formText lossy s = s := by
  unfold formText
  have : s.map (fun c => if c = 43 then 32 else c) = s := by
    conv => rhs; rw [← List.map_id s]
    exact List.map_congr_left (fun c hc => if_neg (h c hc).2.2.1)
  rw [this, unescape_none (fun c hc => (h c hc).2.1)]
  exact hl s (ascii_valid s (fun c hc => (h c hc).1))

theorem formText_encode {s : Str} (h : Wire.validUtf8 s = true) : formText lossy (formEncode s) = s := by
  unfold formText
  suffices H : ∀ s : Str, unescape ((formEncode s).map (fun c => if c = 43 then 32 else c)) = s by rw [H s]; exact hl s h
  intro s
  induction s with
  | nil => rfl
  | cons c s ih =>
    simp only [formEncode, List.flatMap_cons, List.map_append] at ih ⊢
    by_cases h1 : c = 32
    · subst h1
      simp only [if_true, List.map_cons, List.map_nil, List.singleton_append]
      rw [unescape_plain (by decide), ih]
    · simp only [if_neg h1]
      split
      · next h2 =>
        have h3 : c ≠ 43 ∧ c ≠ 37 := by
          constructor <;> (rintro rfl; revert h2; decide)
        simp only [List.map_cons, List.map_nil, if_neg h3.1, List.singleton_append]
        rw [unescape_plain h3.2, ih]
      · have h4 : (escaped c).map (fun c => if c = 43 then 32 else c) = escaped c := by
          revert c
          have : ∀ c : UInt8, (escaped c).map (fun c => if c = 43 then 32 else c) = escaped c := by
            apply byte_all
            decide +kernel
          intro c _ _
          exact this c
        rw [h4, unescape_escaped, ih]

end

theorem encode_tame (s : Str) : (∀ c ∈ formEncode s, c ≠ 38) ∧ Tame (formEncode s) := by
  have one : ∀ c : UInt8, ∀ d ∈ (if c = 32 then [43]
    else if (48 ≤ c.toNat ∧ c.toNat ≤ 57) ∨ (65 ≤ c.toNat ∧ c.toNat ≤ 90) ∨ (97 ≤ c.toNat ∧ c.toNat ≤ 122) ∨ c = 42 ∨ c = 45 ∨ c = 46 ∨ c = 95 then [c]
    else escaped c : List UInt8), d ≠ 38 ∧ querySet d = false := by
    apply byte_all
    decide +kernel
  constructor <;> intro d hd <;> obtain ⟨c, _, hc⟩ := List.mem_flatMap.1 hd
  · exact (one c d hc).1
  · exact (one c d hc).2

theorem digits_literal (n : Nat) : Literal (Paths.digits n) := by
  have key : ∀ k n, Literal (Paths.digitsN k n) := by
    intro k
    induction k with
    | zero => intro n c hc; cases hc
    | succ k ih =>
      intro n c hc
      simp only [Paths.digitsN] at hc
      rcases List.mem_append.1 hc with hc | hc
      · split at hc
        · cases hc
        · exact ih _ c hc
      · rw [List.mem_singleton.1 hc]
        have : ∀ m : Fin 10, (fun c : UInt8 => c.toNat < 128 ∧ c ≠ 37 ∧ c ≠ 43 ∧ c ≠ 38 ∧ querySet c = false) (UInt8.ofNat (0x30 + m.val)) := by decide
        exact this ⟨n % 10, Nat.mod_lt _ (by decide)⟩
  exact key _ _

theorem Literal.tame {s : Str} (h : Literal s) : Tame s := fun c hc => (h c hc).2.2.2.2
theorem Literal.amp {s : Str} (h : Literal s) : ∀ c ∈ s, c ≠ 38 := fun c hc => (h c hc).2.2.2.1

instance (s : Str) : Decidable (Literal s) := by unfold Literal; infer_instance
instance (s : Str) : Decidable (Tame s) := by unfold Tame; infer_instance

theorem views_literal {view : Str} (h : view ∈ Views) : Literal view := by
  simp only [Views, List.mem_cons, List.not_mem_nil, or_false] at h
  rcases h with rfl | rfl | rfl <;> decide

theorem queueAddress_eq (n view : Str) (offset : Nat) : queueAddress n view offset =
    address (ascii "queue") n ((ascii "state" ++ 61 :: view) ++ 38 :: ((ascii "offset" ++ 61 :: Paths.digits offset) ++ 38 :: (ascii "limit" ++ 61 :: ascii "50"))) := by
  have e1 : ascii "/api/queue/" = 47 :: (ascii "api" ++ 47 :: (ascii "queue" ++ [47])) := by decide
  have e2 : ascii "/messages?state=" = 47 :: (ascii "messages" ++ 63 :: (ascii "state" ++ [61])) := by decide
  have e3 : ascii "&offset=" = 38 :: (ascii "offset" ++ [61]) := by decide
  have e4 : ascii "&limit=50" = 38 :: (ascii "limit" ++ 61 :: ascii "50") := by decide
  simp only [queueAddress, address, e1, e2, e3, e4, List.append_assoc, List.cons_append, List.nil_append]

/-- The query of `streamAddress`. -/
def streamRest (f : Option Nat) : Str :=
  (ascii "limit" ++ 61 :: ascii "50") ++ match f with | some k => 38 :: (ascii "from" ++ 61 :: Paths.digits k) | none => []

theorem streamAddress_eq (n : Str) (f : Option Nat) : streamAddress n f =
    address (ascii "stream") n (streamRest f) := by
  have e1 : ascii "/api/stream/" = 47 :: (ascii "api" ++ 47 :: (ascii "stream" ++ [47])) := by decide
  have e2 : ascii "/messages?limit=50" = 47 :: (ascii "messages" ++ 63 :: (ascii "limit" ++ 61 :: ascii "50")) := by decide
  have e3 : ascii "&from=" = 38 :: (ascii "from" ++ [61]) := by decide
  cases f <;> simp only [streamAddress, streamRest, address, e1, e2, e3, List.append_assoc, List.cons_append, List.nil_append]

theorem tame_pair {k v : Str} (hk : Literal k) (hv : Tame v) : Tame (k ++ 61 :: v) := by
  refine hk.tame.append (fun c hc => ?_)
  rcases List.mem_cons.1 hc with rfl | hc
  · decide
  · exact hv c hc

theorem tame_amp {a b : Str} (ha : Tame a) (hb : Tame b) : Tame (a ++ 38 :: b) := by
  refine ha.append (fun c hc => ?_)
  rcases List.mem_cons.1 hc with rfl | hc
  · decide
  · exact hb c hc

theorem queue_tame {view : Str} (h : view ∈ Views) (offset : Nat) :
    Tame ((ascii "state" ++ 61 :: view) ++ 38 :: ((ascii "offset" ++ 61 :: Paths.digits offset) ++ 38 :: (ascii "limit" ++ 61 :: ascii "50"))) :=
  tame_amp (tame_pair (by decide) (views_literal h).tame) (tame_amp (tame_pair (by decide) (digits_literal _).tame) (by decide))

theorem stream_tame (f : Option Nat) :
    Tame (streamRest f) := by
  unfold streamRest
  cases f with
  | none => decide
  | some k => exact tame_amp (by decide) (tame_pair (by decide) (digits_literal _).tame)

/-- Which names differ. -/
theorem names : (ascii "state" == ascii "offset") = false ∧ (ascii "state" == ascii "limit") = false ∧ (ascii "state" == ascii "search") = false ∧
    (ascii "offset" == ascii "state") = false ∧ (ascii "offset" == ascii "limit") = false ∧ (ascii "offset" == ascii "search") = false ∧
    (ascii "limit" == ascii "state") = false ∧ (ascii "limit" == ascii "offset") = false ∧ (ascii "limit" == ascii "search") = false ∧
    (ascii "search" == ascii "limit") = false ∧ (ascii "search" == ascii "offset") = false ∧
    (ascii "limit" == ascii "from") = false ∧ (ascii "from" == ascii "limit") = false := by decide

section
variable {lossy : Bytes → Str} (hl : ∀ s, Wire.validUtf8 s = true → lossy s = s)
include hl

/-! ## C128 -/

/-- **C128** (partial: names that can stand in an address as they are, see `C128_queue_only`).  When a queue of that name is selected on the page of
queues, the server is asked for the messages of exactly this queue, with the selected state and page. -/
theorem C128_queue_partial {n view : Str} {offset : Nat} (hn : Linkable n) (hu : Wire.validUtf8 n = true) (hv : view ∈ Views) (ho : offset < 2 ^ 64) :
    serve lossy (browse (queueAddress n view offset)) = .queueMessages n { state := view, offset := some offset, limit := some 50, search := none } := by
  obtain ⟨h1, h2, h3⟩ := linkable_path word_queue (queue_tame hv offset) hn
  rw [queueAddress_eq, h1]
  have hf : fields lossy ((ascii "state" ++ 61 :: view) ++ 38 :: ((ascii "offset" ++ 61 :: Paths.digits offset) ++ 38 :: (ascii "limit" ++ 61 :: ascii "50"))) =
      [(ascii "state", view), (ascii "offset", Paths.digits offset), (ascii "limit", ascii "50")] := by
    rw [fields_append, fields_append, fields_one lossy (by decide) (views_literal hv).amp, fields_one lossy (by decide) (digits_literal _).amp,
      fields_one lossy (by decide) (by decide), formText_literal hl (s := ascii "state") (by decide), formText_literal hl (views_literal hv),
      formText_literal hl (s := ascii "offset") (by decide), formText_literal hl (digits_literal _), formText_literal hl (s := ascii "limit") (by decide),
      formText_literal hl (s := ascii "50") (by decide)]
    rfl
  have hq : queueQuery [(ascii "state", view), (ascii "offset", Paths.digits offset), (ascii "limit", ascii "50")] =
      some { state := view, offset := some offset, limit := some 50, search := none } := by
    obtain ⟨a1, a2, a3, a4, a5, a6, a7, a8, a9, _⟩ := names
    simp only [queueQuery, field, List.filter_cons, List.filter_nil, beq_self_eq_true, a1, a2, a3, a4, a5, a6, a7, a8, a9, if_true, Bool.false_eq_true, if_false,
      Paths.parseU64_digits ho, show Paths.parseU64 (ascii "50") = some 50 from by decide, Option.map_some]
  simp only [serve, hf, h3, hu, hq, h2, ne_eq, not_false_iff, and_self, if_true]

/-- **C128** (partial: likewise).  When a topic is selected on the page of streams, the server is asked for the messages of exactly this topic, from the selected
number on. -/
theorem C128_stream_partial {n : Str} {f : Option Nat} (hn : Linkable n) (hu : Wire.validUtf8 n = true) (hf : ∀ k, f = some k → k < 2 ^ 64) :
    serve lossy (browse (streamAddress n f)) = .topicMessages n { «from» := f, limit := some 50 } := by
  obtain ⟨h1, h2, h3⟩ := linkable_path word_stream (stream_tame f) hn
  rw [streamAddress_eq, h1]
  have hq : streamQuery (fields lossy (streamRest f)) =
      some { «from» := f, limit := some 50 } := by
    obtain ⟨_, _, _, _, _, _, _, _, _, _, _, b1, b2⟩ := names
    have h50 : fields lossy (ascii "limit" ++ 61 :: ascii "50") = [(ascii "limit", ascii "50")] := by
      rw [fields_one lossy (by decide) (by decide), formText_literal hl (s := ascii "limit") (by decide), formText_literal hl (s := ascii "50") (by decide)]
    unfold streamRest
    cases f with
    | none =>
      simp only [List.append_nil]
      rw [h50]
      simp only [streamQuery, field, List.filter_cons, List.filter_nil, beq_self_eq_true, b1, if_true, Bool.false_eq_true, if_false,
        show Paths.parseU64 (ascii "50") = some 50 from by decide, Option.map_some]
    | some k =>
      simp only
      rw [fields_append, h50, fields_one lossy (by decide) (digits_literal _).amp, formText_literal hl (s := ascii "from") (by decide),
        formText_literal hl (digits_literal _)]
      simp only [List.cons_append, List.nil_append, streamQuery, field, List.filter_cons, List.filter_nil, beq_self_eq_true, b1, b2, if_true, Bool.false_eq_true,
        if_false, show Paths.parseU64 (ascii "50") = some 50 from by decide, Option.map_some, Paths.parseU64_digits (hf k rfl)]
  have hne : ascii "stream" ≠ ascii "queue" := by decide
  simp only [serve, hq, h3, hu, h2, hne, ne_eq, not_false_iff, and_self, if_true, false_and, and_false, if_false]

/-- `/api/w?rest` -/
def shortAddress (w rest : Str) : Str := 47 :: (ascii "api" ++ 47 :: (w ++ 63 :: rest))

omit hl in
theorem browse_short {w rest : Str} (hw : Word w) (hr : Tame rest) : browse (shortAddress w rest) = { path := [ascii "api", w], query := rest } := by
  have hc : cleaned (shortAddress w rest) = shortAddress w rest := by
    have hrest : cleaned rest = rest := List.filter_eq_self.2 (fun c hc => (tame_byte c (hr c hc)).1)
    have h47 : ∀ t, cleaned (47 :: t) = 47 :: cleaned t := fun t => rfl
    have h63 : ∀ t, cleaned (63 :: t) = 63 :: cleaned t := fun t => rfl
    simp only [shortAddress, cleaned_append, h47, h63, word_api.clean, hw.clean, hrest]
  have key : ∀ {v : Str} {c : UInt8}, (∀ c ∈ v, (c != 35 && c != 63) = true ∧ c ≠ 47 ∧ c ≠ 92) → c ∈ v → (c != 35) = true ∧ (c != 63) = true :=
    fun hv hc => Bool.and_eq_true _ _ ▸ (hv _ hc).1
  have h1 : (shortAddress w rest).takeWhile (· != 35) = shortAddress w rest := by
    apply takeWhile_of_all
    intro c hc
    simp only [shortAddress, List.mem_cons, List.mem_append] at hc
    rcases hc with rfl | hc | rfl | hc | rfl | hc
    · rfl
    · exact (key word_api.marks hc).1
    · rfl
    · exact (key hw.marks hc).1
    · rfl
    · exact (tame_byte c (hr c hc)).2
  have hsplit : shortAddress w rest = (47 :: (ascii "api" ++ 47 :: w)) ++ 63 :: rest := by simp [shortAddress]
  have hpre : ∀ c ∈ (47 :: (ascii "api" ++ 47 :: w) : Str), (c != 63) = true := by
    intro c hc
    simp only [List.mem_cons, List.mem_append] at hc
    rcases hc with rfl | hc | rfl | hc
    · rfl
    · exact (key word_api.marks hc).2
    · rfl
    · exact (key hw.marks hc).2
  unfold browse
  rw [hc]
  simp only [h1]
  rw [hsplit, List.takeWhile_append_of_pos hpre, List.dropWhile_append_of_pos hpre]
  have h63 : List.takeWhile (· != 63) (63 :: rest) = [] := rfl
  have h63' : List.dropWhile (· != 63) (63 :: rest) = 63 :: rest := rfl
  rw [h63, h63', List.append_nil]
  simp only [List.drop_succ_cons, List.drop_zero, tame_encode hr]
  rw [parts_append, parts_simple (fun c hc => (word_api.marks c hc).2), parts_simple (fun c hc => (hw.marks c hc).2), resolve_snoc]
  simp [walkLast, walk, hw.dot.1, hw.dot.2, hw.enc, word_api.dot.1, word_api.dot.2, word_api.enc]

/-- **C128.** Whatever text is entered in the search field of the store's page, the server searches for this text, and shows the selected page. -/
theorem C128_store {search : Str} {limit offset : Nat} (hu : Wire.validUtf8 search = true) (h1 : limit < 2 ^ 64) (h2 : offset < 2 ^ 64) :
    serve lossy (browse (storeAddress search limit offset)) =
      .store { limit := some limit, offset := if offset = 0 then none else some offset, search := if search = [] then none else some search } := by
  have hw : Word (ascii "store") := ⟨by decide, by decide, by decide, by decide⟩
  obtain ⟨_, _, _, _, n5, n6, _, n8, n9, n10, n11, _⟩ := names
  have e0 : ascii "/api/store?" = 47 :: (ascii "api" ++ 47 :: (ascii "store" ++ [63])) := by decide
  have e1 : ascii "search=" = ascii "search" ++ [61] := by decide
  have e2 : ascii "limit=" = ascii "limit" ++ [61] := by decide
  have e3 : ascii "&offset=" = 38 :: (ascii "offset" ++ [61]) := by decide
  have e4 : ascii "&" = [38] := by decide
  have t1 : Tame (ascii "search" ++ 61 :: formEncode search) := tame_pair (by decide) (encode_tame search).2
  have t2 : Tame (ascii "limit" ++ 61 :: Paths.digits limit) := tame_pair (by decide) (digits_literal _).tame
  have t3 : Tame (ascii "offset" ++ 61 :: Paths.digits offset) := tame_pair (by decide) (digits_literal _).tame
  have f1 : fields lossy (ascii "search" ++ 61 :: formEncode search) = [(ascii "search", search)] := by
    rw [fields_one lossy (by decide) (encode_tame search).1, formText_literal hl (s := ascii "search") (by decide), formText_encode hl hu]
  have f2 : fields lossy (ascii "limit" ++ 61 :: Paths.digits limit) = [(ascii "limit", Paths.digits limit)] := by
    rw [fields_one lossy (by decide) (digits_literal _).amp, formText_literal hl (s := ascii "limit") (by decide), formText_literal hl (digits_literal _)]
  have f3 : fields lossy (ascii "offset" ++ 61 :: Paths.digits offset) = [(ascii "offset", Paths.digits offset)] := by
    rw [fields_one lossy (by decide) (digits_literal _).amp, formText_literal hl (s := ascii "offset") (by decide), formText_literal hl (digits_literal _)]
  have main : ∀ {rest : Str} {p : Store.Params}, storeAddress search limit offset = shortAddress (ascii "store") rest → Tame rest →
      searchQuery (fields lossy rest) = some p → serve lossy (browse (storeAddress search limit offset)) = .store p := by
    intro rest p g1 g2 g3
    rw [g1, browse_short hw g2]
    simp only [serve, g3]
    rw [if_neg (by decide), if_neg (by decide), if_pos (by decide)]
  by_cases hs : search = [] <;> by_cases ho : offset = 0
  · refine main (rest := ascii "limit" ++ 61 :: Paths.digits limit) ?_ t2 ?_
    · simp only [storeAddress, shortAddress, e0, e2, if_pos hs, if_pos ho, List.append_assoc, List.cons_append, List.nil_append, List.append_nil]
    · rw [f2]
      simp only [searchQuery, field, List.filter_cons, List.filter_nil, beq_self_eq_true, n8, n9, if_true, Bool.false_eq_true, if_false,
        Paths.parseU64_digits h1, Option.map_some, if_pos hs, if_pos ho]
  · refine main (rest := (ascii "limit" ++ 61 :: Paths.digits limit) ++ 38 :: (ascii "offset" ++ 61 :: Paths.digits offset)) ?_ (tame_amp t2 t3) ?_
    · simp only [storeAddress, shortAddress, e0, e2, e3, if_pos hs, if_neg ho, List.append_assoc, List.cons_append, List.nil_append]
    · rw [fields_append, f2, f3]
      simp only [searchQuery, field, List.cons_append, List.nil_append, List.filter_cons, List.filter_nil, beq_self_eq_true, n5, n6, n8, n9, if_true, Bool.false_eq_true,
        if_false, Paths.parseU64_digits h1, Paths.parseU64_digits h2, Option.map_some, if_pos hs, if_neg ho]
  · refine main (rest := (ascii "search" ++ 61 :: formEncode search) ++ 38 :: (ascii "limit" ++ 61 :: Paths.digits limit)) ?_ (tame_amp t1 t2) ?_
    · simp only [storeAddress, shortAddress, e0, e1, e2, e4, if_neg hs, if_pos ho, List.append_assoc, List.cons_append, List.nil_append, List.append_nil]
    · rw [fields_append, f1, f2]
      simp only [searchQuery, field, List.cons_append, List.nil_append, List.filter_cons, List.filter_nil, beq_self_eq_true, n8, n9, n10, n11, if_true, Bool.false_eq_true,
        if_false, Paths.parseU64_digits h1, Option.map_some, if_neg hs, if_pos ho]
  · refine main (rest := (ascii "search" ++ 61 :: formEncode search) ++ 38 :: ((ascii "limit" ++ 61 :: Paths.digits limit) ++
      38 :: (ascii "offset" ++ 61 :: Paths.digits offset))) ?_ (tame_amp t1 (tame_amp t2 t3)) ?_
    · simp only [storeAddress, shortAddress, e0, e1, e2, e3, e4, if_neg hs, if_neg ho, List.append_assoc, List.cons_append, List.nil_append]
    · rw [fields_append, fields_append, f1, f2, f3]
      simp only [searchQuery, field, List.cons_append, List.nil_append, List.filter_cons, List.filter_nil, beq_self_eq_true, n5, n6, n8, n9, n10, n11, if_true,
        Bool.false_eq_true, if_false, Paths.parseU64_digits h1, Paths.parseU64_digits h2, Option.map_some, if_neg hs, if_neg ho]

/-- **C128.** The same for the page of publish/subscribe. -/
theorem C128_pubsub {search : Str} {offset : Nat} (hu : Wire.validUtf8 search = true) (h2 : offset < 2 ^ 64) :
    serve lossy (browse (pubsubAddress search offset)) = .pubsub (some 50) (some offset) (if search = [] then none else some search) := by
  have hw : Word (ascii "pubsub") := ⟨by decide, by decide, by decide, by decide⟩
  obtain ⟨_, _, _, _, n5, n6, _, n8, n9, n10, n11, _⟩ := names
  have e0 : ascii "/api/pubsub?" = 47 :: (ascii "api" ++ 47 :: (ascii "pubsub" ++ [63])) := by decide
  have e1 : ascii "&search=" = 38 :: (ascii "search" ++ [61]) := by decide
  have e2 : ascii "limit=50" = ascii "limit" ++ 61 :: ascii "50" := by decide
  have e3 : ascii "&offset=" = 38 :: (ascii "offset" ++ [61]) := by decide
  have t1 : Tame (ascii "search" ++ 61 :: formEncode search) := tame_pair (by decide) (encode_tame search).2
  have t2 : Tame (ascii "limit" ++ 61 :: ascii "50") := by decide
  have t3 : Tame (ascii "offset" ++ 61 :: Paths.digits offset) := tame_pair (by decide) (digits_literal _).tame
  have f1 : fields lossy (ascii "search" ++ 61 :: formEncode search) = [(ascii "search", search)] := by
    rw [fields_one lossy (by decide) (encode_tame search).1, formText_literal hl (s := ascii "search") (by decide), formText_encode hl hu]
  have f2 : fields lossy (ascii "limit" ++ 61 :: ascii "50") = [(ascii "limit", ascii "50")] := by
    rw [fields_one lossy (by decide) (by decide), formText_literal hl (s := ascii "limit") (by decide), formText_literal hl (s := ascii "50") (by decide)]
  have f3 : fields lossy (ascii "offset" ++ 61 :: Paths.digits offset) = [(ascii "offset", Paths.digits offset)] := by
    rw [fields_one lossy (by decide) (digits_literal _).amp, formText_literal hl (s := ascii "offset") (by decide), formText_literal hl (digits_literal _)]
  have p50 : Paths.parseU64 (ascii "50") = some 50 := by decide
  have main : ∀ {rest : Str} {p : Store.Params}, pubsubAddress search offset = shortAddress (ascii "pubsub") rest → Tame rest →
      searchQuery (fields lossy rest) = some p → serve lossy (browse (pubsubAddress search offset)) = .pubsub p.limit p.offset p.search := by
    intro rest p g1 g2 g3
    rw [g1, browse_short hw g2]
    simp only [serve, g3]
    rw [if_neg (by decide), if_neg (by decide), if_neg (by decide), if_pos (by decide)]
  by_cases hs : search = []
  · rw [if_pos hs]
    refine main (p := { limit := some 50, offset := some offset, search := none })
      (rest := (ascii "limit" ++ 61 :: ascii "50") ++ 38 :: (ascii "offset" ++ 61 :: Paths.digits offset)) ?_ (tame_amp t2 t3) ?_
    · simp only [pubsubAddress, shortAddress, e0, e2, e3, if_pos hs, List.append_assoc, List.cons_append, List.nil_append, List.append_nil]
    · rw [fields_append, f2, f3]
      simp only [searchQuery, field, List.cons_append, List.nil_append, List.filter_cons, List.filter_nil, beq_self_eq_true, n5, n6, n8, n9, if_true, Bool.false_eq_true,
        if_false, p50, Paths.parseU64_digits h2, Option.map_some]
  · rw [if_neg hs]
    refine main (p := { limit := some 50, offset := some offset, search := some search })
      (rest := (ascii "limit" ++ 61 :: ascii "50") ++ 38 :: ((ascii "offset" ++ 61 :: Paths.digits offset) ++ 38 :: (ascii "search" ++ 61 :: formEncode search))) ?_
      (tame_amp t2 (tame_amp t3 t1)) ?_
    · simp only [pubsubAddress, shortAddress, e0, e1, e2, e3, if_neg hs, List.append_assoc, List.cons_append, List.nil_append]
    · rw [fields_append, fields_append, f1, f2, f3]
      simp only [searchQuery, field, List.cons_append, List.nil_append, List.filter_cons, List.filter_nil, beq_self_eq_true, n5, n6, n8, n9, n10, n11, if_true,
        Bool.false_eq_true, if_false, p50, Paths.parseU64_digits h2, Option.map_some]

end

/-- **C128.** The other names are never asked for: whatever the address leads to, it is not the selected queue. -/
theorem C128_queue_only {lossy : Bytes → Str} {n view : Str} {offset : Nat} {q : QueueQuery} (hv : view ∈ Views)
    (h : serve lossy (browse (queueAddress n view offset)) = .queueMessages n q) : Linkable n := by
  rw [queueAddress_eq] at h
  simp only [serve] at h
  split at h
  · next a b hp => repeat' split at h
                   all_goals cases h
  · next a b x m hp =>
    split at h
    · next hc =>
      obtain ⟨rfl, rfl, hx, rfl⟩ := hc
      split at h
      · split at h
        · injection h with h _
          exact linkable_of word_queue (queue_tame hv offset) hx hp h
        · cases h
      · cases h
    · repeat' split at h
      all_goals cases h
  · cases h

/-- **C128.** The same for topics. -/
theorem C128_stream_only {lossy : Bytes → Str} {n : Str} {f : Option Nat} {q : StreamQuery}
    (h : serve lossy (browse (streamAddress n f)) = .topicMessages n q) : Linkable n := by
  rw [streamAddress_eq] at h
  simp only [serve] at h
  split at h
  · next a b hp => repeat' split at h
                   all_goals cases h
  · next a b x m hp =>
    split at h
    · repeat' split at h
      all_goals cases h
    · split at h
      · next hc =>
        obtain ⟨rfl, rfl, hx, rfl⟩ := hc
        split at h
        · split at h
          · injection h with h _
            exact linkable_of word_stream (stream_tame f) hx hp h
          · cases h
        · cases h
      · cases h
  · cases h

/-! ### Examples -/

/-- A name with letters, a space, `é` and a `%`. -/
def exName : Str := ascii "my queue: " ++ [0xC3, 0xA9] ++ ascii " 100%"

/-- The hypotheses are met. -/
theorem exLinkable : Linkable exName := by
  refine ⟨by decide +kernel, by decide +kernel, by decide +kernel, (unescape_length _).2.1 ?_⟩
  rw [show unescape exName = exName from by decide +kernel]

theorem exValid : Wire.validUtf8 exName = true := by decide +kernel

theorem exView : ascii "dlq" ∈ Views := by decide +kernel

example : serve id (browse (queueAddress exName (ascii "dlq") 100)) =
    .queueMessages exName { state := ascii "dlq", offset := some 100, limit := some 50, search := none } :=
  C128_queue_partial (lossy := id) (fun _ _ => rfl) exLinkable exValid exView (by decide)

def exSearch : Str := ascii "a&b=c #1+%41/"

theorem exSearchValid : Wire.validUtf8 exSearch = true ∧ exSearch ≠ [] := by decide +kernel

example : serve id (browse (storeAddress exSearch 100 0)) = .store { limit := some 100, offset := none, search := some exSearch } := by
  rw [C128_store (lossy := id) (fun _ _ => rfl) exSearchValid.1 (by decide) (by decide), if_pos rfl, if_neg exSearchValid.2]

/-- **C128 is violated** by names that cannot stand in an address.  The page does not escape them: the messages of the queue `orders/new` cannot be shown, the server
answers with a file; for the queue `50%25` it answers with the messages of the queue `50%`, and for `a/../b` with those of `b`. -/
theorem C128_violated :
    serve id (browse (queueAddress (ascii "orders/new") (ascii "pending") 0)) = .file [ascii "api", ascii "queue", ascii "orders", ascii "new", ascii "messages"] ∧
    serve id (browse (queueAddress (ascii "50%25") (ascii "pending") 0)) =
      .queueMessages (ascii "50%") { state := ascii "pending", offset := some 0, limit := some 50, search := none } ∧
    serve id (browse (queueAddress (ascii "a/../b") (ascii "pending") 0)) =
      .queueMessages (ascii "b") { state := ascii "pending", offset := some 0, limit := some 50, search := none } ∧
    serve id (browse (streamAddress (ascii "x/../../stream/y") none)) = .topicMessages (ascii "y") { «from» := none, limit := some 50 } := by
  decide +kernel

end Verif.Dashboard
