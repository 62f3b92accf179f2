import Verif.Stream.Run

/-!
Properties C139 to C143: RTP packets are streamed whole and in order.
-/

namespace Hdtn.Stream

open Spec

/-- A packet for examples: a first byte and a length. -/
private def pk (a : UInt8) (n : Nat) : Bytes := a :: List.replicate (n - 1) 7

/-- A packet comes and is handled at once. -/
private def all (p : Bytes) : List Ev := [.packet p, .take, .handle]

private theorem calm_example : Calm ⟨2, 2⟩ Send.start (all (pk 128 12) ++ all (pk 128 20) ++ all (pk 0 30) ++ all (pk 129 13) ++ [.step1, .step2 fun _ => 0]) := by
  simp only [all, List.cons_append, List.nil_append, Calm]
  decide +kernel

/-- C139 (partial: no bundle is overwritten in the queue between the question for the length and the copy; the next theorem shows that this is needed): what
is handed over are payloads for whole groups of packets, each with as many as is configured, and the packets are ones that were given, in the same order,
each at most once. No memory is used that is not there, and the question for the length is never answered with zero, which would end the stream. -/
theorem C139_whole_partial (c : Cfg) (es : List Ev) (hp : c.perBundle < 2 ^ 16) (hs : Small es) (hc : Calm c Send.start es) :
    (Send.start.run c es).fault = false ∧ (Send.start.run c es).length ≠ 0 ∧
    ∃ groups, List.Forall₂ Payload groups (Send.start.run c es).sent ∧ (∀ g ∈ groups, g.length = c.perBundle) ∧
      groups.flatten.Sublist ((given es).filter fun p => decide (Passes p)) := by
  obtain ⟨sg, og, grp, h⟩ := inv_of hp hs hc
  refine ⟨h.fault, ?_, sg, ?_, ?_, ?_⟩
  · unfold Send.length
    rw [h.outgoing]
    cases og with
    | nil => simp [U64]
    | cons x og =>
      have hx := (h.full x (by simp)).2
      cases x with
      | nil => exact absurd rfl hx
      | cons p x => simp [bundle, frame, le8_length]
  · rw [h.sent]; exact bundle_payloads sg
  · exact fun g hg => (h.full g (List.mem_append_left _ hg)).1
  · refine List.Sublist.trans ?_ h.sub
    unfold Send.way
    exact List.sublist_append_left _ _

example : Small (all (pk 128 12) ++ all (pk 128 20) ++ all (pk 0 30) ++ all (pk 129 13) ++ [.step1, .step2 fun _ => 0]) ∧
    (Send.start.run ⟨2, 2⟩ (all (pk 128 12) ++ all (pk 128 20) ++ all (pk 0 30) ++ all (pk 129 13) ++ [.step1, .step2 fun _ => 0])).sent
      = [[12, 0, 0, 0, 0, 0, 0, 0] ++ pk 128 12 ++ [20, 0, 0, 0, 0, 0, 0, 0] ++ pk 128 20] := by
  constructor
  · simp only [all, List.cons_append, List.nil_append, Small, given]
    decide +kernel
  · decide +kernel

/-- C139, violated: the queue is full and a bundle is overwritten after the length of its payload was told. The next payload is copied instead of it: beyond the
end of the memory if it is longer; and if it is shorter, what was in the memory before is sent behind it. -/
theorem C139_overrun_violated :
    (Send.start.run ⟨1, 1⟩ (all (pk 128 12) ++ all (pk 128 13) ++ [.step1] ++ all (pk 128 12) ++ [.step2 fun _ => 0])).fault = true ∧
    (Send.start.run ⟨1, 1⟩ (all (pk 128 13) ++ all (pk 128 12) ++ [.step1] ++ all (pk 128 12) ++ [.step2 fun _ => 99])).sent
      = [[12, 0, 0, 0, 0, 0, 0, 0] ++ pk 128 12 ++ [99]] := by
  decide +kernel

/-- C140: if no queue ever overflowed, nothing that passes is lost: the packets in the payloads are the first ones given, and when all queues are empty at most
as many are missing as go into one bundle. -/
theorem C140_nothing_lost (c : Cfg) (es : List Ev) (hp : c.perBundle < 2 ^ 16) (h0 : 0 < c.perBundle) (hs : Small es) (hc : Calm c Send.start es)
    (hi : (Send.start.run c es).inOverruns = 0) (ho : (Send.start.run c es).outOverruns = 0) :
    ∃ groups rest, List.Forall₂ Payload groups (Send.start.run c es).sent ∧ groups.flatten ++ rest = ((given es).filter fun p => decide (Passes p)) ∧
      ((Send.start.run c es).incoming = [] → (Send.start.run c es).taken = none → (Send.start.run c es).outgoing = [] → rest.length ≤ c.perBundle) := by
  obtain ⟨sg, og, grp, h⟩ := inv_of hp hs hc
  have hall := h.all hi ho
  unfold Send.way at hall
  refine ⟨sg, _, by rw [h.sent]; exact bundle_payloads sg, hall, ?_⟩
  intro h1 h2 h3
  have ho := h.outgoing
  rw [h3] at ho
  have : og = [] := by cases og with
    | nil => rfl
    | cons x og => simp at ho
  subst this
  rw [h1, h2]
  have hf := h.few
  split <;> simp <;> omega

/-- C140: after any history without further packets all queues can become empty, with no more overflows. -/
theorem C140_drains (c : Cfg) (es : List Ev) (hp : c.perBundle < 2 ^ 16) (hcap : 1 ≤ c.cap) (hs : Small es) (hc : Calm c Send.start es) :
    ∃ more, given more = [] ∧ Calm c Send.start (es ++ more) ∧ (Send.start.run c (es ++ more)).incoming = [] ∧ (Send.start.run c (es ++ more)).taken = none ∧
      (Send.start.run c (es ++ more)).outgoing = [] ∧ (Send.start.run c (es ++ more)).inOverruns = (Send.start.run c es).inOverruns ∧
      (Send.start.run c (es ++ more)).outOverruns = (Send.start.run c es).outOverruns := by
  obtain ⟨sg, og, grp, h⟩ := inv_of hp hs hc
  have hg : ∀ p ∈ passing (given es), p.length < 2 ^ 32 := fun p hp => hs p (List.mem_of_mem_filter hp)
  obtain ⟨more, h1, h2, h3, h4, h5, h6, h7⟩ := drain_all c hp hcap _ hg rfl h
  refine ⟨more, h1, (calm_append ..).mpr ⟨hc, h2⟩, ?_⟩
  rw [run_append]
  exact ⟨h3, h4, h5, h6, h7⟩

example : (Send.start.run ⟨2, 2⟩ (all (pk 128 12) ++ all (pk 128 20) ++ all (pk 0 30) ++ all (pk 129 13) ++ [.step1, .step2 fun _ => 0])).incoming = [] ∧
    (Send.start.run ⟨2, 2⟩ (all (pk 128 12) ++ all (pk 128 20) ++ all (pk 0 30) ++ all (pk 129 13) ++ [.step1, .step2 fun _ => 0])).outgoing = [] ∧
    (Send.start.run ⟨2, 2⟩ (all (pk 128 12) ++ all (pk 128 20) ++ all (pk 0 30) ++ all (pk 129 13) ++ [.step1, .step2 fun _ => 0])).inOverruns = 0 ∧
    (Send.start.run ⟨2, 2⟩ (all (pk 128 12) ++ all (pk 128 20) ++ all (pk 0 30) ++ all (pk 129 13) ++ [.step1, .step2 fun _ => 0])).outOverruns = 0 := by
  decide +kernel

/-- Payloads determine the packets. -/
private theorem bundle_inj : ∀ (a b : List (List Bytes)), (∀ g ∈ a, ∀ p ∈ g, p.length < 2 ^ 64) → (∀ g ∈ b, g ≠ [] ∧ ∀ p ∈ g, p.length < U64) →
    a.map bundle = b.map bundle → a = b
  | [], [], _, _, _ => rfl
  | [], _ :: _, _, _, h => by simp at h
  | _ :: _, [], _, _, h => by simp at h
  | x :: a, y :: b, ha, hb, h => by
    rw [List.map_cons, List.map_cons, List.cons.injEq] at h
    have hy := hb y (List.mem_cons_self ..)
    have hx : x ≠ [] := by
      intro hx
      subst hx
      cases y with
      | nil => exact hy.1 rfl
      | cons p y =>
        have := congrArg List.length h.1
        simp [bundle, frame, le8_length] at this
        omega
    have h1 := unpack_bundle x hx (ha x (List.mem_cons_self ..)) ((bundle x).length + 1) (Nat.lt_succ_self _)
    have h2 := unpack_bundle y hy.1 hy.2 ((bundle x).length + 1) (by rw [h.1]; exact Nat.lt_succ_self _)
    rw [← h.1, h1] at h2
    rw [(Prod.mk.inj h2).1,
      bundle_inj a b (fun g hg => ha g (List.mem_cons_of_mem _ hg)) (fun g hg => hb g (List.mem_cons_of_mem _ hg)) h.2]

/-- Once a packet passed there is always one that waits for the next. -/
private theorem session_way {c : Cfg} {s : Send} {g : List Bytes} {sg og : List (List Bytes)} {grp : List Bytes} (h : Inv c s g sg og grp)
    (hg : g ≠ []) (hi : s.inOverruns = 0) (ho : s.outOverruns = 0) (hses : s.session = false → sg = [] ∧ og = [] ∧ grp = []) :
    sg.flatten.length < g.length := by
  have hall := h.all hi ho
  cases hs : s.session with
  | true =>
    rw [← hall]
    unfold Send.way
    rw [hs]
    simp only [List.length_append, if_true, List.length_singleton]
    omega
  | false =>
    obtain ⟨h1, h2, h3⟩ := hses hs
    subst h1
    have : 0 < g.length := List.length_pos_of_ne_nil hg
    simpa using this

/-- Without a session nothing was sent. -/
private theorem session_run (c : Cfg) (es : List Ev) : ∀ s : Send, (s.session = false → s.sent = [] ∧ s.outgoing = [] ∧ s.group = []) →
    ((s.run c es).session = false → (s.run c es).sent = [] ∧ (s.run c es).outgoing = [] ∧ (s.run c es).group = []) := by
  induction es with
  | nil => exact fun s h => h
  | cons e es ih =>
    intro s h
    refine ih (s.step c e) ?_
    cases e with
    | packet p => exact h
    | take => unfold Send.step Send.take; simp only; split <;> exact h
    | step1 => unfold Send.step Send.step1; simp only; split <;> exact h
    | step2 junk =>
      unfold Send.step Send.step2
      simp only
      split
      · exact h
      · split
        · exact h
        · rename_i b q hq
          have hs : s.session ≠ false := fun hs => by rw [(h hs).2.1] at hq; exact nomatch hq
          split
          · exact fun hs' => absurd hs' hs
          · exact h
    | handle =>
      unfold Send.step Send.handle
      simp only
      cases ht : s.taken with
      | none => exact h
      | some p =>
        simp only [passes_iff]
        cases hs : s.session with
        | false =>
          by_cases hv : Passes p
          · simp [hv]
          · by_cases hl : p.length < 12
            · simp only [if_neg hv, if_pos hl]; exact fun _ => h hs
            · simp only [if_neg hv, if_neg hl]; exact fun _ => h hs
        | true =>
          by_cases hv : Passes p
          · simp only [if_pos hv, if_true]
            unfold Send.pushFrame
            simp only
            split
            · unfold Send.pushBundle
              simp only
              split
              · intro hh; exact nomatch hh
              · intro hh; exact nomatch hh
            · intro hh; exact nomatch hh
          · by_cases hl : p.length < 12
            · simp only [if_neg hv, if_pos hl]; intro hh; exact nomatch hh
            · simp only [if_neg hv, if_neg hl]; intro hh; exact nomatch hh

/-- C140, violated: not everything is sent: at any time at least the last packet waits for the next one, so the end of a stream is never sent. -/
theorem C140_last_violated (c : Cfg) (es : List Ev) (hp : c.perBundle < 2 ^ 16) (hs : Small es) (hc : Calm c Send.start es)
    (hi : (Send.start.run c es).inOverruns = 0) (ho : (Send.start.run c es).outOverruns = 0) (hne : ∃ p ∈ given es, Passes p) (groups : List (List Bytes))
    (hsmall : ∀ g ∈ groups, ∀ p ∈ g, p.length < 2 ^ 64) (hgr : List.Forall₂ Payload groups (Send.start.run c es).sent) :
    groups.flatten.length < ((given es).filter fun p => decide (Passes p)).length := by
  obtain ⟨sg, og, grp, h⟩ := inv_of hp hs hc
  obtain ⟨p, hp1, hp2⟩ := hne
  have hg : passing (given es) ≠ [] := List.ne_nil_of_mem (List.mem_filter.mpr ⟨hp1, by simpa using hp2⟩)
  have hses := session_run c es Send.start (fun _ => ⟨rfl, rfl, rfl⟩)
  have hw := session_way h hg hi ho (fun hf => by
    obtain ⟨h1, h2, h3⟩ := hses hf
    rw [h.sent] at h1; rw [h.outgoing] at h2; rw [h.group] at h3
    exact ⟨List.map_eq_nil_iff.mp h1, List.map_eq_nil_iff.mp h2, List.map_eq_nil_iff.mp h3⟩)
  have he : (groups.map bundle) = sg.map bundle := by rw [← payloads_bundle hgr, h.sent]
  have hsg : ∀ x ∈ sg, x ≠ [] ∧ ∀ p ∈ x, p.length < U64 := by
    intro x hx
    refine ⟨(h.full x (List.mem_append_left _ hx)).2, fun p hp => ?_⟩
    have hm : p ∈ passing (given es) := by
      apply h.sub.subset
      unfold Send.way
      exact List.mem_append_left _ (List.mem_flatten.mpr ⟨x, hx, hp⟩)
    have := hs p (List.mem_of_mem_filter hm)
    unfold U64; omega
  rw [bundle_inj groups sg hsmall hsg he]
  exact hw

example : ∃ p ∈ given (all (pk 128 12) ++ all (pk 128 20) ++ all (pk 0 30) ++ all (pk 129 13) ++ [.step1, .step2 fun _ => 0]), Passes p :=
  ⟨pk 128 12, by simp [all, given], by decide +kernel⟩

/-- C140, violated: with no packets per bundle, which the configuration allows, nothing is ever sent. -/
theorem C140_zero_violated (c : Cfg) (es : List Ev) (h0 : c.perBundle = 0) (hs : Small es) (hc : Calm c Send.start es) : (Send.start.run c es).sent = [] := by
  obtain ⟨sg, og, grp, h⟩ := inv_of (by omega) hs hc
  rw [h.sent]
  cases sg with
  | nil => rfl
  | cons x sg =>
    obtain ⟨h1, h2⟩ := h.full x (by simp)
    rw [h0] at h1
    exact absurd (List.eq_nil_of_length_eq_zero h1) h2

/-- C141 (partial: version 3 passes too, as the next theorem shows): only packets with a whole header of RTP version 2 or 3 are sent; a packet of another version, or
one that is too short, is dropped and changes nothing else. -/
theorem C141_version_partial (c : Cfg) (s : Send) (p : Bytes) (ht : s.taken = some p) :
    (version p ≠ some 2 → version p ≠ some 3 → s.handle c = { s with taken := none }) ∧
    (IsRtp p → (s.handle c).session = true ∧ (s.handle c).current = p) := by
  unfold Send.handle
  rw [ht]
  simp only [passes_iff]
  constructor
  · intro h2 h3
    have hv : ¬ Passes p := fun h => h.elim h2 h3
    by_cases hl : p.length < 12
    · simp only [if_neg hv, if_pos hl]
    · simp only [if_neg hv, if_neg hl]
  · intro hr
    have hv : Passes p := .inl hr
    simp only [if_pos hv]
    cases hs : s.session with
    | false => exact ⟨rfl, rfl⟩
    | true =>
      simp only [if_true]
      refine ⟨?_, trivial⟩
      unfold Send.pushFrame
      simp only
      split
      · unfold Send.pushBundle; simp only; split <;> rfl
      · rfl

example : version (pk 0 30) = some 0 ∧ IsRtp (pk 128 12) ∧ version [128] = none := by decide +kernel

/-- C141, violated: packets of version 3 are sent. -/
theorem C141_version_violated :
    (Send.start.run ⟨1, 1⟩ (all (pk 192 12) ++ all (pk 128 12) ++ [.step1, .step2 fun _ => 0])).sent = [[12, 0, 0, 0, 0, 0, 0, 0] ++ pk 192 12] ∧
    version (pk 192 12) = some 3 := by
  decide +kernel

/-- C142: when payloads arrive that are made of packets, no memory is used that is not there, and the packets that go out are those of some of the payloads, in
order. If the queue has room for each payload, they are those of all payloads, except for those that wait in the queue. -/
theorem C142_receive (cap : Nat) (es : List REv) (groups : List (List Bytes)) (ha : List.Forall₂ Payload groups (arrived es))
    (hg : ∀ g ∈ groups, g ≠ [] ∧ ∀ p ∈ g, p.length < 2 ^ 64) :
    (Receive.start.run cap es).fault = false ∧
    ∃ out wait, (Receive.start.run cap es).out = out.flatten ∧ List.Forall₂ Payload wait (Receive.start.run cap es).queue ∧ (out ++ wait).Sublist groups ∧
      (Room cap Receive.start es → out ++ wait = groups) := by
  have h0 : RInv Receive.start [] [] [] := ⟨rfl, rfl, List.Sublist.refl _, rfl⟩
  obtain ⟨dn, qs, h1, h2⟩ := rinv_run (cap := cap) es (more := groups) (fun x hx => hg x (by simpa using hx)) h0 (payloads_bundle ha)
  refine ⟨h1.fault, dn, qs, h1.out, by rw [h1.queue]; exact bundle_payloads qs, by simpa using h1.sub, fun hr => by simpa using h2 hr⟩

example : Receive.start.run 1 [.payload ([1, 0, 0, 0, 0, 0, 0, 0, 5] ++ [2, 0, 0, 0, 0, 0, 0, 0, 6, 7]), .process] = ⟨[], [[5], [6, 7]], false⟩ := by
  decide +kernel

/-- C142: the receiver keeps to the memory of a payload only if it is made of packets, at least one. -/
theorem C142_exact (b : Bytes) (q out : List Bytes) (cap : Nat) (h : (Receive.step cap ⟨b :: q, out, false⟩ .process).fault = false) :
    ∃ ps, ps ≠ [] ∧ Payload ps b ∧ (Receive.step cap ⟨b :: q, out, false⟩ .process).out = out ++ ps := by
  have h' : (unpack (b.length + 1) b).2 = false := by
    have : (false || (unpack (b.length + 1) b).2) = false := h
    simpa using this
  obtain ⟨h1, h2⟩ := unpack_sound _ b h'
  exact ⟨_, h1, h2, rfl⟩

/-- C142, violated: payloads that are not made of packets, as those of any other application, or an empty one, make the receiver use memory beyond them. -/
theorem C142_malformed_violated :
    (Receive.start.run 5 [.payload [], .process]).fault = true ∧ (Receive.start.run 5 [.payload [1, 2, 3], .process]).fault = true ∧
    (Receive.start.run 5 [.payload [200, 0, 0, 0, 0, 0, 0, 0, 1], .process]).fault = true := by
  decide +kernel

/-- C143: a stream from end to end. Of the payloads that were handed over some arrive, in order. The packets that go out are ones that were given, in the same order,
each at most once; and if no queue ever overflowed and all payloads arrived, they are the first ones given, and all are except for those that wait in a queue. -/
theorem C143_stream_partial (c : Cfg) (es : List Ev) (cap : Nat) (res : List REv) (hp : c.perBundle < 2 ^ 16) (hs : Small es) (hc : Calm c Send.start es)
    (hnet : (arrived res).Sublist (Send.start.run c es).sent) :
    (Receive.start.run cap res).fault = false ∧ (Receive.start.run cap res).out.Sublist ((given es).filter fun p => decide (Passes p)) ∧
    (arrived res = (Send.start.run c es).sent → Room cap Receive.start res → (Send.start.run c es).inOverruns = 0 → (Send.start.run c es).outOverruns = 0 →
      (Receive.start.run cap res).out <+: ((given es).filter fun p => decide (Passes p)) ∧
      ((Receive.start.run cap res).queue = [] → (Send.start.run c es).incoming = [] → (Send.start.run c es).taken = none →
        (Send.start.run c es).outgoing = [] → 0 < c.perBundle →
        ((given es).filter fun p => decide (Passes p)).length ≤ (Receive.start.run cap res).out.length + c.perBundle)) := by
  obtain ⟨sg, og, grp, h⟩ := inv_of hp hs hc
  have hway : sg.flatten.Sublist (passing (given es)) := by
    refine List.Sublist.trans ?_ h.sub
    unfold Send.way
    exact List.sublist_append_left _ _
  have hsg : ∀ x ∈ sg, x ≠ [] ∧ ∀ p ∈ x, p.length < 2 ^ 64 := by
    intro x hx
    refine ⟨(h.full x (List.mem_append_left _ hx)).2, fun p hp => ?_⟩
    have := hs p (List.mem_of_mem_filter (hway.subset (List.mem_flatten.mpr ⟨x, hx, hp⟩)))
    omega
  have hnet2 := hnet
  rw [h.sent] at hnet2
  obtain ⟨gs, hg1, hg2⟩ := List.sublist_map_iff.mp hnet2
  obtain ⟨h1, out, wait, h2, h3, h4, h5⟩ := C142_receive cap res gs (by rw [hg2]; exact bundle_payloads gs) (fun x hx => hsg x (hg1.subset hx))
  refine ⟨h1, ?_, ?_⟩
  · rw [h2]
    exact (sublist_flatten (((List.sublist_append_left out wait).trans h4).trans hg1)).trans hway
  · intro ha hr hi ho
    have heq : gs = sg := by
      apply hg1.eq_of_length
      have := congrArg List.length hg2
      rw [ha, h.sent, List.length_map, List.length_map] at this
      exact this.symm
    subst heq
    have h6 := h5 hr
    have hall := h.all hi ho
    unfold Send.way at hall
    constructor
    · rw [h2, show ((given es).filter fun p => decide (Passes p)) = _ from hall.symm, ← h6]
      simp only [List.flatten_append, List.append_assoc]
      exact List.prefix_append _ _
    · intro q1 q2 q3 q4 hpb
      rw [q1] at h3
      cases h3
      rw [List.append_nil] at h6
      subst h6
      have hog := h.outgoing
      rw [q4] at hog
      have : og = [] := List.map_eq_nil_iff.mp hog.symm
      subst this
      rw [h2, show ((given es).filter fun p => decide (Passes p)) = _ from hall.symm, q2, q3]
      have hf := h.few
      split <;> simp <;> omega

example : (Receive.start.run 3 [.payload ([12, 0, 0, 0, 0, 0, 0, 0] ++ pk 128 12 ++ [20, 0, 0, 0, 0, 0, 0, 0] ++ pk 128 20), .process]).out
    = [pk 128 12, pk 128 20] := by
  decide +kernel

end Hdtn.Stream
