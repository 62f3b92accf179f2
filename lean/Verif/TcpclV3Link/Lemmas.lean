import Verif.TcpclV3Link.Spec

/-! # Auxiliary facts: messages on their way -/

namespace Hdtn.TcpclV3Link

/-- Acknowledgements, and whether each is the last one of a bundle. -/
def lab : List Nat → List (Nat × Bool)
  | [] => []
  | [n] => [(n, true)]
  | n :: m :: l => (n, false) :: lab (m :: l)

theorem lab_cons (n : Nat) (t : List Nat) : lab (n :: t) = (n, t.isEmpty) :: lab t := by
  cases t <;> rfl

/-- What a receiver with `k` in its buffer makes of messages: bundles and acknowledgements, these
with whether they complete a bundle. -/
def feed (k : Bytes) : List Msg → List Bytes × List (Nat × Bool)
  | [] => ([], [])
  | .data s e d :: l =>
    let r := take1 k s e d
    let f := feed r.1 l
    (r.2.1 ++ f.1, (r.2.2, e) :: f.2)
  | .contact _ _ :: l => feed k l
  | .ack _ :: l => feed k l
  | .length _ :: l => feed k l
  | .refuse :: l => feed k l
  | .keepalive :: l => feed k l
  | .shutdown :: l => feed k l

/-- The buffer afterwards. -/
def buf (k : Bytes) : List Msg → Bytes
  | [] => k
  | .data s e d :: l => buf (take1 k s e d).1 l
  | .contact _ _ :: l => buf k l
  | .ack _ :: l => buf k l
  | .length _ :: l => buf k l
  | .refuse :: l => buf k l
  | .keepalive :: l => buf k l
  | .shutdown :: l => buf k l

theorem feed_append (k : Bytes) (l l' : List Msg) :
    feed k (l ++ l') = ((feed k l).1 ++ (feed (buf k l) l').1, (feed k l).2 ++ (feed (buf k l) l').2) := by
  induction l generalizing k with
  | nil => simp [feed, buf]
  | cons m l ih => cases m <;> simp [feed, buf, ih]

/-- The acknowledgements among messages. -/
def acksOf : List Msg → List Nat
  | [] => []
  | .ack n :: l => n :: acksOf l
  | .data _ _ _ :: l => acksOf l
  | .contact _ _ :: l => acksOf l
  | .length _ :: l => acksOf l
  | .refuse :: l => acksOf l
  | .keepalive :: l => acksOf l
  | .shutdown :: l => acksOf l

theorem acksOf_append (l l' : List Msg) : acksOf (l ++ l') = acksOf l ++ acksOf l' := by
  induction l with
  | nil => rfl
  | cons m l ih => cases m <;> simp [acksOf, ih]

/-- Whether acknowledgements are asked for once the messages are received. -/
def flagAfter (w : Bool) : List Msg → Bool
  | [] => w
  | .contact a _ :: l => flagAfter a l
  | .data _ _ _ :: l => flagAfter w l
  | .ack _ :: l => flagAfter w l
  | .length _ :: l => flagAfter w l
  | .refuse :: l => flagAfter w l
  | .keepalive :: l => flagAfter w l
  | .shutdown :: l => flagAfter w l

/-- Every data segment among the messages is received when acknowledgements are asked for. -/
def okFlow (w : Bool) : List Msg → Prop
  | [] => True
  | .contact a _ :: l => okFlow a l
  | .data _ _ _ :: l => w = true ∧ okFlow w l
  | .ack _ :: l => okFlow w l
  | .length _ :: l => okFlow w l
  | .refuse :: l => okFlow w l
  | .keepalive :: l => okFlow w l
  | .shutdown :: l => okFlow w l

theorem flagAfter_append (w : Bool) (l l' : List Msg) :
    flagAfter w (l ++ l') = flagAfter (flagAfter w l) l' := by
  induction l generalizing w with
  | nil => rfl
  | cons m l ih => cases m <;> simp [flagAfter, ih]

theorem okFlow_append (w : Bool) (l l' : List Msg) :
    okFlow w (l ++ l') ↔ okFlow w l ∧ okFlow (flagAfter w l) l' := by
  induction l generalizing w with
  | nil => simp [okFlow, flagAfter]
  | cons m l ih => cases m <;> simp [okFlow, flagAfter, ih, and_assoc]

/-- Data segments and lengths. -/
def Msg.plain : Msg → Prop
  | .data _ _ _ => True
  | .length _ => True
  | _ => False

theorem acksOf_plain {l : List Msg} (h : ∀ m ∈ l, m.plain) : acksOf l = [] := by
  induction l with
  | nil => rfl
  | cons m l ih =>
    have h1 := h m (by simp)
    have h2 := ih (fun x hx => h x (by simp [hx]))
    cases m <;> simp_all [acksOf, Msg.plain]

theorem flagAfter_plain {l : List Msg} (w : Bool) (h : ∀ m ∈ l, m.plain) : flagAfter w l = w := by
  induction l with
  | nil => rfl
  | cons m l ih =>
    have h1 := h m (by simp)
    have h2 := ih (fun x hx => h x (by simp [hx]))
    cases m <;> simp_all [flagAfter, Msg.plain]

theorem okFlow_plain {l : List Msg} (h : ∀ m ∈ l, m.plain) : okFlow true l := by
  induction l with
  | nil => trivial
  | cons m l ih =>
    have h1 := h m (by simp)
    have h2 := ih (fun x hx => h x (by simp [hx]))
    cases m <;> simp_all [okFlow, Msg.plain]

theorem segs_plain (f k : Nat) (s : Bool) (d : Bytes) : ∀ m ∈ segs f k s d, m.plain := by
  induction k generalizing s d with
  | zero => simp [segs, Msg.plain]
  | succ k ih =>
    intro m hm
    unfold segs at hm
    split at hm
    · simp at hm; subst hm; trivial
    · rcases List.mem_cons.1 hm with h | h
      · subst h; trivial
      · exact ih _ _ m h

theorem segments_plain (c : Cfg) (d : Bytes) : ∀ m ∈ c.segments d, m.plain := by
  unfold Cfg.segments
  split
  · exact segs_plain _ _ _ _
  · simp [Msg.plain]

theorem own_fst (d : Bytes) (l : List Msg) : (own d l).map Prod.fst = l := by
  induction l with
  | nil => rfl
  | cons m l ih =>
    cases l with
    | nil => rfl
    | cons m' l' => simpa [own] using ih

theorem cums_ne (f k n : Nat) (d : Bytes) : cums f k n d ≠ [] := by
  cases k with
  | zero => simp [cums]
  | succ k => unfold cums; split <;> simp

theorem feed_segs (f k : Nat) (b d : Bytes) :
    feed b (segs f k false d) = ([b ++ d], lab (cums f k b.length d)) := by
  induction k generalizing b d with
  | zero => simp [segs, feed, take1, cums, lab]
  | succ k ih =>
    unfold segs cums
    split
    · simp [feed, take1, lab]
    · next h =>
      simp only [feed, take1, Bool.false_and, Bool.false_eq_true, if_false, ih]
      have hl : (b ++ d.take f).length = b.length + f := by
        simp; omega
      rw [lab_cons, List.isEmpty_eq_false_iff.2 (cums_ne _ _ _ _)]
      simp [hl, List.append_assoc]

theorem feed_segs_first (f k : Nat) (b d : Bytes) (h : f < d.length) (hk : 0 < k) :
    feed b (segs f k true d) = ([d], lab (cums f k 0 d)) := by
  cases k with
  | zero => omega
  | succ k =>
    unfold segs cums
    rw [if_neg (by omega), if_neg (by omega)]
    simp only [feed, take1, Bool.and_false, Bool.false_eq_true, if_false, if_true, List.nil_append,
      feed_segs]
    have hl : (d.take f).length = f := by simp; omega
    rw [lab_cons, List.isEmpty_eq_false_iff.2 (cums_ne _ _ _ _)]
    simp [hl]

theorem cums_getLast (f k n : Nat) (d : Bytes) : (cums f k n d).getLast? = some (n + d.length) := by
  induction k generalizing n d with
  | zero => simp [cums]
  | succ k ih =>
    unfold cums
    split
    · simp
    · next h =>
      rw [List.getLast?_cons, ih]
      simp; omega

/-- The acknowledgements a place of the ring still waits for. -/
def Entry.rest (x : Entry) : List Nat := if x.frags = [] then [x.size] else x.frags.drop x.idx

/-- The same, with which is the last. -/
def Entry.labelled (x : Entry) : List (Nat × Bool) := lab x.rest

/-- A place of the ring is in order. -/
def Entry.Ok (x : Entry) : Prop :=
  x.frags = [] ∨ (x.idx < x.frags.length ∧ x.frags.getLast? = some x.size)

/-- The place a bundle gets in the ring. -/
def Cfg.entry (c : Cfg) (u : Nat) (d : Bytes) : Entry :=
  { user := u, size := d.length,
    frags := if c.cuts d then cums c.frag d.length 0 d else [], idx := 0 }

theorem entry_ok (c : Cfg) (u : Nat) (d : Bytes) : (c.entry u d).Ok := by
  unfold Cfg.entry Entry.Ok
  by_cases h : c.cuts d = true
  · right
    simp only [h, if_true]
    refine ⟨List.length_pos_iff.2 (cums_ne _ _ _ _), ?_⟩
    rw [cums_getLast]; simp
  · left; simp [h]

/-- Whatever is in its buffer, a receiver makes the bundle of its segments, and acknowledges them
as the ring expects. -/
theorem feed_segments (c : Cfg) (k : Bytes) (u : Nat) (d : Bytes) :
    feed k (c.segments d) = ([d], (c.entry u d).labelled) := by
  unfold Cfg.segments Cfg.entry Entry.labelled Entry.rest
  by_cases h : c.cuts d = true
  · have h' : c.frag < d.length := by simp [Cfg.cuts] at h; exact h.2
    simp only [h, if_true]
    rw [feed_segs_first _ _ _ _ h' (by omega), if_neg (cums_ne _ _ _ _)]
    simp
  · simp [h, feed, take1, lab]

/-- One acknowledgement, if it is the one the first place waits for: that place waits for one
less, and a bundle is reported exactly if nothing is left to wait for. -/
theorem ackIn_rest (e : End) (x : Entry) (r : List Entry) (n : Nat) (t : List Nat)
    (hr : e.ring = x :: r) (hx : x.Ok) (ht : x.rest = n :: t) :
    (t = [] ∧ e.ackIn n = { e with ring := r, success := e.success ++ [x.user] }) ∨
    (t ≠ [] ∧ ∃ y : Entry, y.Ok ∧ y.rest = t ∧ y.user = x.user ∧
      e.ackIn n = { e with ring := y :: r }) := by
  unfold Entry.rest at ht
  by_cases hf : x.frags = []
  · rw [if_pos hf] at ht
    obtain ⟨h1, h2⟩ := List.cons.inj ht
    left
    refine ⟨h2.symm, ?_⟩
    unfold End.ackIn
    simp [hr, hf, h1]
  · rw [if_neg hf] at ht
    rcases hx with hx | ⟨hi, hl⟩
    · exact absurd hx hf
    · have hd := List.drop_eq_getElem_cons hi
      rw [hd] at ht
      obtain ⟨h1, h2⟩ := List.cons.inj ht
      by_cases hlast : x.idx + 1 = x.frags.length
      · left
        have ht0 : t = [] := by rw [← h2, hlast]; simp
        refine ⟨ht0, ?_⟩
        have hs : x.size = n := by
          rw [List.getLast?_eq_getElem?, List.getElem?_eq_getElem (by omega)] at hl
          have := Option.some.inj hl
          rw [← this, ← h1]
          congr 1; omega
        unfold End.ackIn
        simp [hr, hf, hlast, hs]
      · right
        have ht0 : t ≠ [] := by rw [← h2]; simp; omega
        refine ⟨ht0, { x with idx := x.idx + 1 }, ?_, ?_, rfl, ?_⟩
        · right; exact ⟨by show x.idx + 1 < x.frags.length; omega, hl⟩
        · unfold Entry.rest
          rw [if_neg hf]; exact h2
        · unfold End.ackIn
          simp [hr, hf, hlast]

/-- What is on its way from `a` to `b`. -/
def Sys.flow (s : Sys) : List Msg :=
  s.ab ++ s.a.out.map Prod.fst ++ (if s.a.error then [] else s.a.pend.map Prod.fst)

/-- One direction is in order. -/
structure Dir (s : Sys) : Prop where
  del : ∃ lost, s.b.delivered ++ (feed s.b.concat s.flow).1 ++ lost = s.a.accepted.map Prod.snd ∧
    (s.a.error = false → lost = [])
  ack : ∃ T lost, T.map Prod.fst = acksOf (s.ba ++ s.b.out.map Prod.fst) ∧
    T ++ (if s.b.error then [] else (feed s.b.concat s.flow).2) ++ lost =
      s.a.ring.flatMap Entry.labelled ∧
    s.a.success.length + T.countP Prod.snd ≤ s.b.delivered.length ∧
    (s.a.error = false → s.b.error = false → lost = [])
  user : s.a.success ++ s.a.ring.map Entry.user = s.a.accepted.map Prod.fst
  ok : ∀ x ∈ s.a.ring, x.Ok
  flag : okFlow s.b.wantsAck s.flow
  ready : (s.a.active = true ∨ s.a.ready = true) → s.a.error = false →
    flagAfter s.b.wantsAck s.flow = true
  plain : ∀ m ∈ s.a.pend.map Prod.fst, m.plain
  quiet : s.a.error = true → s.a.out = []

end Hdtn.TcpclV3Link
