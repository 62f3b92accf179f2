import Verif.TcpclV4Link.Pieces
import Verif.Uri.Props

/-! What holds of two entities at all times. -/

namespace Hdtn.TcpclV4Link

open TcpclV4 (Event Ext)
open TcpclV4.Spec (generate Sendable Fits opens)
open Spec (Suits segment perBundle)

/-- The messages an entity has written, has in the queue, has yet to hand over, has got; and its bundles. -/
structure View where
  sent : List Event
  posted : List Event
  outbox : List Event
  got : List Event
  jobs : List Job

/-- The messages of an established session. -/
def plain : Event → Bool
  | .data _ _ _ _ _ => true
  | .ack _ _ _ _ => true
  | .keepAlive => true
  | .term _ _ => true
  | _ => false

/-- The contact header of an entity. -/
def contactMsg (c : Cfg) : Event := .contact c.tryTls

/-- Its session initialisation. -/
def initMsg (c : Cfg) : Event := .init c.keep c.segMru c.xferMru (Uri.getIpnUriString c.nodeId 0) []

/-- What an entity has sent to open the session when it has got `n` messages. -/
def opened (c : Cfg) (n : Nat) : List Event :=
  if c.active then (if n = 0 then [contactMsg c] else [contactMsg c, initMsg c])
  else if n = 0 then [] else if n = 1 then [contactMsg c] else [contactMsg c, initMsg c]

/-- The invariant of one entity, apart from its parser. -/
structure Core (careful : Bool) (c d : Cfg) (x : Side) (v : View) (peer : List Event) : Prop where
  out : x.out = v.sent.flatMap generate
  posted : x.posted = v.posted.map generate
  outbox : x.outbox = v.outbox.map generate
  ok : ∀ e ∈ v.sent ++ v.posted ++ v.outbox, Sendable e ∧ Fits d.xferMru e
  got : v.got <+: peer
  opening : ∃ rest, v.sent ++ v.posted = opened c v.got.length ++ rest ∧ (∀ e ∈ rest ++ v.outbox, plain e = true) ∧
    (v.got.length < 2 → rest = [] ∧ v.outbox = [])
  flushed : 2 ≤ v.got.length → opened c v.got.length <+: v.sent
  jobs : ∀ j ∈ v.jobs, j.bundle ≠ [] ∧ j.id < 2 ^ 64 ∧ j.bundle.length < 2 ^ 64 ∧
    (careful = true → j.bundle.length ≤ d.xferMru)
  forwarded : x.forwarded = v.jobs.map fun j => (j.bundle, j.user)
  data : (v.sent ++ v.posted).filter isData ++ v.outbox = (allPieces (segment d) v.jobs).map fun p => p.event
  acks : (v.sent ++ v.posted).filter isAck = (asm c.leaves [] v.got).2.2
  concat : x.link.concat = (asm c.leaves [] v.got).1
  delivered : x.delivered = (asm c.leaves [] v.got).2.1
  early : v.got.length < 2 → v.jobs = [] ∧ x.link.ready = false ∧ x.link.keep = 0 ∧ x.tasks = []
  late : 2 ≤ v.got.length → x.link.remoteSeg = segment d ∧ ∃ r, x.link.ring = some r
  nextId : x.link.nextId < 2 ^ 64
  ring : careful = true → 2 ≤ v.got.length → x.link.ring = some ⟨c.maxUnacked * perBundle d + 9,
    (entries (allPieces (segment d) v.jobs)).drop (v.got.filter isAck).length⟩
  succeeded : careful = true → x.succeeded =
    (((entries (allPieces (segment d) v.jobs)).take (v.got.filter isAck).length).filter fun q => q.1.isEnd).map Prod.snd

variable {careful : Bool} {c d : Cfg} {x y : Side} {v w : View} {peer : List Event}

theorem Core.mono {peer' : List Event} (h : Core careful c d x v peer) (hp : peer <+: peer') :
    Core careful c d x v peer' := { h with got := h.got.trans hp }

/-- The link's parser, and what has been read, do not matter. -/
theorem Core.rx (h : Core careful c d x v peer) (r : TcpclV4.Rx) (n : Nat) :
    Core careful c d { x with link := { x.link with rx := r }, read := n } v peer := { h with }

theorem opened_length (c : Cfg) (n : Nat) : (opened c n).length ≤ 2 := by
  unfold opened
  split
  · split <;> simp
  · split
    · simp
    · split <;> simp

theorem segment_pos (h : Suits c d) : 0 < segment d := by
  have := h.segMru.1
  have := h.xferMru.1
  unfold segment
  omega

/-! ### Messages that an entity gets -/

theorem data_prefix (h : Core careful c d x v peer) {g : List Event} (hg : g <+: v.sent) :
    g.filter isData <+: (allPieces (segment d) v.jobs).map fun p => p.event := by
  obtain ⟨t, ht⟩ := hg
  refine ⟨t.filter isData ++ v.posted.filter isData ++ v.outbox, ?_⟩
  rw [← h.data, ← ht]
  simp

theorem asm_got (hs : 0 < segment d) (h : Core careful c d x v peer) {g : List Event} (hg : g <+: v.sent)
    (leaves : Bytes → Bytes) :
    (asm leaves [] g).2.1 <+: v.jobs.map (·.bundle) ∧
      (asm leaves [] g).2.2 <+: (allPieces (segment d) v.jobs).map fun p => p.ack.event := by
  have h1 := asm_prefix leaves [] (data_prefix h hg)
  obtain ⟨c', h2⟩ := asm_allPieces leaves (segment d) hs v.jobs (fun j hj => (h.jobs j hj).1) []
  rw [h2, asm_filter] at h1
  exact h1

theorem acks_got (hs : 0 < segment d) (h : Core careful c d x v w.sent) (hw : Core careful d c y w v.sent)
    {g : List Event} (hg : g <+: w.sent) :
    g.filter isAck <+: (allPieces (segment d) v.jobs).map fun p => p.ack.event := by
  have h1 : g.filter isAck <+: (asm d.leaves [] w.got).2.2 := by
    rw [← hw.acks]
    obtain ⟨t, ht⟩ := hg
    exact ⟨t.filter isAck ++ w.posted.filter isAck, by rw [← ht]; simp⟩
  exact h1.trans (asm_got hs h hw.got d.leaves).2

/-- The next message from the peer. -/
theorem next_event (h : Core careful d c y w v.sent) {g : List Event} {e : Event} (hg : g ++ [e] <+: w.sent) :
    (g.length = 0 → e = contactMsg d ∧ (d.active = false → 1 ≤ w.got.length)) ∧
    (g.length = 1 → e = initMsg d ∧ 1 ≤ w.got.length ∧ (d.active = false → 2 ≤ w.got.length)) ∧
    (2 ≤ g.length → plain e = true ∧ 2 ≤ w.got.length) := by
  obtain ⟨rest, h1, h2, h3⟩ := h.opening
  have hget : (opened d w.got.length ++ rest)[g.length]? = some e := by
    rw [← h1]
    obtain ⟨t, ht⟩ := hg
    rw [← ht]
    simp
  have hrest : ∀ i, 2 ≤ i → (opened d w.got.length ++ rest)[i]? = some e → plain e = true ∧ 2 ≤ w.got.length := by
    intro i hi hg'
    rw [List.getElem?_append_right (by have := opened_length d w.got.length; omega)] at hg'
    have hm := List.mem_of_getElem? hg'
    refine ⟨h2 e (by simp [hm]), ?_⟩
    by_contra hlt
    rw [(h3 (by omega)).1] at hm
    simp at hm
  refine ⟨fun hl => ?_, fun hl => ?_, fun hl => hrest _ hl hget⟩
  · rw [hl] at hget
    by_cases hw : 2 ≤ w.got.length
    · unfold opened at hget
      rw [if_neg (show ¬ w.got.length = 0 by omega), if_neg (show ¬ w.got.length = 0 by omega),
        if_neg (show ¬ w.got.length = 1 by omega)] at hget
      refine ⟨?_, fun _ => by omega⟩
      split at hget <;> simpa using hget.symm
    · rw [(h3 (by omega)).1] at hget
      unfold opened at hget
      by_cases ha : d.active = true
      · rw [if_pos ha] at hget
        refine ⟨?_, by simp [ha]⟩
        split at hget <;> simpa using hget.symm
      · rw [if_neg ha] at hget
        split at hget
        · simp at hget
        · rename_i h0
          refine ⟨?_, fun _ => by omega⟩
          split at hget <;> simpa using hget.symm
  · rw [hl] at hget
    by_cases hw : 2 ≤ w.got.length
    · unfold opened at hget
      rw [if_neg (show ¬ w.got.length = 0 by omega), if_neg (show ¬ w.got.length = 0 by omega),
        if_neg (show ¬ w.got.length = 1 by omega)] at hget
      refine ⟨?_, by omega, fun _ => by omega⟩
      split at hget <;> simpa using hget.symm
    · rw [(h3 (by omega)).1] at hget
      unfold opened at hget
      by_cases ha : d.active = true
      · rw [if_pos ha] at hget
        split at hget
        · simp at hget
        · refine ⟨by simpa using hget.symm, by omega, by simp [ha]⟩
      · rw [if_neg ha] at hget
        split at hget
        · simp at hget
        · split at hget
          · simp at hget
          · refine ⟨by simpa using hget.symm, by omega, fun _ => by omega⟩

/-- While the session is being opened, messages that must have been written have been. -/
theorem flushed_early (h : Core careful c d x v peer) (hg : v.got.length < 2)
    (hn : (opened c v.got.length).length ≤ v.sent.length) : v.sent = opened c v.got.length ∧ v.posted = [] ∧ v.outbox = [] := by
  obtain ⟨rest, h1, -, h3⟩ := h.opening
  obtain ⟨h4, h5⟩ := h3 hg
  rw [h4, List.append_nil] at h1
  have : v.posted = [] := by
    have := congrArg List.length h1
    rw [List.length_append] at this
    exact List.length_eq_zero_iff.1 (by omega)
  rw [this, List.append_nil] at h1
  exact ⟨h1, this, h5⟩

end Hdtn.TcpclV4Link
