import Verif.LtpSender.Deferred
import Verif.LtpSender.Sound

/-!
Theorems about the sending LTP session: C16, C17, C20 (checkpoints), C60.
-/

namespace Hdtn.LtpSender
open Hdtn.FragmentSet Hdtn.LtpReport
open Hdtn.LtpReceiver (Seg Reason)

/-- A ten byte block, eight of them red, three bytes per packet. -/
def demo : Cfg := ⟨3, 0, 2, false, 1, [0, 1, 2, 3, 4, 5, 6, 7, 8, 9], 8⟩

theorem demo_sane : demo.Sane := ⟨by decide, by decide, by decide, by decide⟩

/-- The same with delayed retransmission. -/
def demoDelay : Cfg := { demo with deferral := true }

theorem demoDelay_sane : demoDelay.Sane := ⟨by decide, by decide, by decide, by decide⟩

instance (cfg : Cfg) (evs : List Event) [Decidable (∀ e ∈ evs, ∀ n c r, e = .report n c r → FairReport cfg r)] :
    Decidable (Fair cfg evs) :=
  decidable_of_iff (∀ e ∈ evs, ∀ n c r, e = .report n c r → FairReport cfg r)
    ⟨fun h n c r hm => h _ hm n c r rfl, fun h e he n c r hh => h n c r (by rw [← hh]; exact he)⟩

theorem fair_nil (cfg : Cfg) : Fair cfg [] := by intro n c r h; simp at h

theorem fair_cons (cfg : Cfg) (e : Event) (evs : List Event) (h : e.Fair cfg) (k : Fair cfg evs) :
    Fair cfg (e :: evs) := by
  intro n c r hm
  rcases List.mem_cons.1 hm with rfl | hm
  · exact h
  · exact k n c r hm

/-! ### C16: the first pass -/

/-- C16: in every history the segments of the first pass follow each other without gap or overlap from
the first byte of the block; each is as it should be; and the end of the first pass is reported once, when they
reach the end of the block. -/
theorem C16_first_pass (cfg : Cfg) (hc : cfg.Sane) (serial : Nat) (hs : serial < 2 ^ 64)
    (evs : List Event) (hf : Fair cfg evs) :
    ∃ st effs n, run cfg (init cfg serial) evs = some (st, effs) ∧
      Chain 0 n (firstSegments effs) ∧
      (∀ i s, (firstSegments effs)[i]? = some s → FirstOk cfg i s) ∧
      effs.count .transmitted = if n = cfg.block.length ∧ 1 ≤ cfg.block.length then 1 else 0 := by
  obtain ⟨st, effs, h1, h2⟩ := story cfg hc serial hs evs hf
  refine ⟨st, effs, st.index, h1, h2.chain, h2.first, ?_⟩
  rw [← h2.transmitted, List.count]
  apply List.countP_congr
  intro e _
  cases e <;> simp [isTransmitted]

theorem chain_length {a b : Nat} {segs : List Seg} (h : Chain a b segs)
    (hs : ∀ s ∈ segs, 1 ≤ s.length) : a + segs.length ≤ b := by
  induction segs generalizing a with
  | nil => simp only [Chain] at h; simp [h]
  | cons s ss ih =>
    have h1 := ih h.2 fun t ht => hs t (by simp [ht])
    have h2 := hs s (by simp)
    simp only [List.length_cons]
    omega

/-- C16: once the first pass has been continued as often as the block has bytes, at the latest, its
segments make up the whole block. -/
theorem C16_covers_block (cfg : Cfg) (hc : cfg.Sane) (serial : Nat) (hs : serial < 2 ^ 64)
    (evs : List Event) (hf : Fair cfg evs) (hn : cfg.block.length ≤ evs.count .first) :
    ∃ st effs, run cfg (init cfg serial) evs = some (st, effs) ∧
      Chain 0 cfg.block.length (firstSegments effs) ∧
      ((firstSegments effs).map fun s => s.data.getD []).flatten = cfg.block := by
  obtain ⟨st, effs, h1, h2⟩ := story cfg hc serial hs evs hf
  have hsz : ∀ s ∈ firstSegments effs, 1 ≤ s.length := by
    intro s hs'
    obtain ⟨i, hi, rfl⟩ := List.mem_iff_getElem.1 hs'
    exact (h2.first i _ (List.getElem?_eq_getElem hi)).size.1
  have hlen := chain_length h2.chain hsz
  have hidx : st.index = cfg.block.length := by
    by_contra hne
    have h3 := h2.inv.index
    have h4 := h2.progress (by omega)
    omega
  have hch := h2.chain
  rw [hidx] at hch
  refine ⟨st, effs, h1, hch, ?_⟩
  have hdata : ∀ s ∈ firstSegments effs, s.data = some ((cfg.block.drop s.offset).take s.length) ∧
      s.offset + s.length ≤ cfg.block.length := by
    intro s hs'
    obtain ⟨i, hi, rfl⟩ := List.mem_iff_getElem.1 hs'
    have := h2.first i _ (List.getElem?_eq_getElem hi)
    exact ⟨this.data, this.inside⟩
  have key : ∀ (segs : List Seg) (a : Nat), Chain a cfg.block.length segs →
      (∀ s ∈ segs, s.data = some ((cfg.block.drop s.offset).take s.length) ∧
        s.offset + s.length ≤ cfg.block.length) →
      (segs.map fun s => s.data.getD []).flatten = cfg.block.drop a := by
    intro segs
    induction segs with
    | nil => intro a h _; simp only [Chain] at h; simp [h]
    | cons s ss ih =>
      intro a h hd
      obtain ⟨h3, h4⟩ := h
      obtain ⟨d1, d2⟩ := hd s (by simp)
      rw [List.map_cons, List.flatten_cons, ih _ h4 (fun t ht => hd t (by simp [ht])), d1, h3]
      simp only [Option.getD_some]
      rw [← List.drop_drop, List.take_append_drop]
  have := key _ 0 hch hdata
  simpa using this

example : Fair demo (List.replicate 10 .first) ∧ demo.block.length ≤ (List.replicate 10 Event.first).count .first := by
  refine ⟨?_, by decide⟩
  intro n c r h
  simp at h

example : (run demo (init demo 7) [.first, .first, .first, .first]).map (fun p => segments p.2) =
    some [⟨0, 1, 0, 3, none, some [0, 1, 2]⟩, ⟨0, 1, 3, 3, none, some [3, 4, 5]⟩,
      ⟨2, 1, 6, 2, some (7, 0), some [6, 7]⟩, ⟨7, 1, 8, 2, none, some [8, 9]⟩] := by
  decide +kernel

/-- C16 fails if the red part is said to be longer than the block, which `DoTransmissionRequest`
(LtpEngine.cpp:870-912) does not check: the session reads beyond the block. -/
theorem C16_red_too_long_violated :
    ∃ cfg : Cfg, cfg.block.length < cfg.red ∧ run cfg (init cfg 1) [.first] = none :=
  ⟨⟨3, 0, 2, false, 1, [1], 2⟩, by decide, by decide +kernel⟩

/-! ### C17: completion -/

/-- C17: whatever the reports say, as long as their claims are not empty and end below 2^64, success is
declared only when the whole block has been sent and the reports claim every byte of the red part. -/
theorem C17_success_sound_partial (cfg : Cfg) (hc : cfg.red < 2 ^ 64) (serial : Nat)
    (evs : List Event) (hr : AllInRange evs) (st : State) (effs : List Eff)
    (h : run cfg (init cfg serial) evs = some (st, effs)) (r : Reason)
    (hd : Eff.delete false r ∈ effs) :
    st.index = cfg.block.length ∧ ∀ x < cfg.red, Claimed evs x :=
  (honest cfg hc serial evs st effs hr h).success r hd

/-- C17: whatever happens, the engine is asked at most once to delete the session. -/
theorem C17_once (cfg : Cfg) (serial : Nat) (evs : List Event) (st : State) (effs : List Eff)
    (h : run cfg (init cfg serial) evs = some (st, effs)) : deletions effs ≤ 1 := by
  rw [once cfg serial evs st effs h]
  split <;> omega

/-- C17: with reports about the red part, success is declared, unless the session has failed, as soon
as the whole block has been sent and every byte of the red part is claimed; and never before. -/
theorem C17_success_exact (cfg : Cfg) (hc : cfg.Sane) (hb : 1 ≤ cfg.block.length) (serial : Nat)
    (hs : serial < 2 ^ 64) (evs : List Event) (hf : Fair cfg evs) :
    ∃ st effs, run cfg (init cfg serial) evs = some (st, effs) ∧
      ((∀ r, Eff.delete true r ∉ effs) → ((∃ r, Eff.delete false r ∈ effs) ↔
        Chain 0 cfg.block.length (firstSegments effs) ∧ ∀ x < cfg.red, Claimed evs x)) := by
  obtain ⟨st, effs, h1, h2⟩ := story cfg hc serial hs evs hf
  refine ⟨st, effs, h1, fun hno => ⟨?_, ?_⟩⟩
  · rintro ⟨r, hm⟩
    obtain ⟨-, k1, k2⟩ := h2.success r hm
    exact ⟨by rw [← k1]; exact h2.chain, k2⟩
  · rintro ⟨k1, k2⟩
    have hfun : ∀ (segs : List Seg) (a b b' : Nat), Chain a b segs → Chain a b' segs → b = b' := by
      intro segs
      induction segs with
      | nil => intro a b b' h h'; simp only [Chain] at h h'; omega
      | cons s ss ih => intro a b b' h h'; exact ih _ _ _ h.2 h'.2
    have hidx := hfun _ _ _ _ h2.chain k1
    have hd := h2.complete hidx hb k2
    have hdel := h2.deletes
    rw [hd] at hdel
    simp only [if_true] at hdel
    have hpos : 0 < deletions effs := by omega
    obtain ⟨e, he, hp⟩ := List.countP_pos_iff.1 hpos
    cases e with
    | delete c r =>
      cases c with
      | false => exact ⟨r, he⟩
      | true => exact absurd he (hno r)
    | _ => cases hp

/-- Reports that lose nothing: byte 3 to 5 are missing at first. -/
def demoEvents : List Event :=
  [.first, .first, .first, .first, .report 1 7 ⟨0, 8, [⟨0, 3⟩, ⟨6, 2⟩]⟩, .next, .next,
   .report 2 8 ⟨0, 8, [⟨0, 8⟩]⟩]

theorem demoEvents_fair : Fair demo demoEvents := by
  repeat' (first | exact fair_nil _ | refine fair_cons _ _ _ ?_ ?_)
  all_goals first | trivial | exact ⟨by decide, by decide⟩

example : (run demo (init demo 7) demoEvents).map Prod.snd =
    some [.first ⟨0, 1, 0, 3, none, some [0, 1, 2]⟩, .first ⟨0, 1, 3, 3, none, some [3, 4, 5]⟩,
      .first ⟨2, 1, 6, 2, some (7, 0), some [6, 7]⟩, .first ⟨7, 1, 8, 2, none, some [8, 9]⟩,
      .transmitted, .producible, .ack 1, .again ⟨1, 1, 3, 3, some (8, 1), some [3, 4, 5]⟩,
      .delete false .reserved] := by
  decide +kernel

example : AllInRange demoEvents := by
  intro n c r h
  simp only [demoEvents, List.mem_cons, Event.report.injEq, List.not_mem_nil, or_false, false_or,
    reduceCtorEq] at h
  rcases h with ⟨rfl, rfl, rfl⟩ | ⟨rfl, rfl, rfl⟩ <;> decide

/-- C17 fails for claims that reach 2^64: the position of the claim wraps around, and success is declared for
bytes that nobody claimed. -/
theorem C17_wrap_violated :
    ∃ (evs : List Event) (st : State) (effs : List Eff),
      run demo (init demo 7) evs = some (st, effs) ∧ Eff.delete false .reserved ∈ effs ∧
      ∀ x < demo.red, ¬ Claimed evs x := by
  have hrun : (run demo (init demo 7) [.first, .first, .first, .first,
      .report 1 7 ⟨2 ^ 64 - 5, 2 ^ 64 - 4, [⟨5, 8⟩]⟩]).map
        (fun p => decide (Eff.delete false .reserved ∈ p.2)) = some true := by decide +kernel
  obtain ⟨⟨st, effs⟩, h1, h2⟩ := Option.map_eq_some_iff.1 hrun
  refine ⟨_, st, effs, h1, of_decide_eq_true h2, ?_⟩
  rintro x hx ⟨r, ⟨pre, n, c, post, h, -⟩, k, hk, hlo, -⟩
  have hm : Event.report n c r ∈ [Event.first, .first, .first, .first,
      .report 1 7 ⟨2 ^ 64 - 5, 2 ^ 64 - 4, [⟨5, 8⟩]⟩] := by rw [h]; simp
  simp only [List.mem_cons, reduceCtorEq, Event.report.injEq, List.not_mem_nil, or_false, false_or] at hm
  obtain ⟨-, -, rfl⟩ := hm
  simp only [List.mem_singleton] at hk
  subst hk
  simp only [demo] at hx
  simp only at hlo
  omega

/-- C17 fails for claims outside the red part: with them the session is not completed although every
byte of the red part is claimed and the whole block was sent. -/
theorem C17_outside_claims_violated :
    (run demo (init demo 7) [.first, .first, .first, .first,
        .report 1 7 ⟨20, 25, [⟨0, 5⟩]⟩, .report 2 7 ⟨0, 8, [⟨0, 8⟩]⟩, .next, .next, .next,
        .checkpointExpired 7]).map (fun p => (p.1.index, deletions p.2, p.1.timers, p.1.resend)) =
      some (10, 0, [], []) := by
  decide +kernel

/-- C17 fails for the empty block: its session is never completed. -/
theorem C17_empty_block_violated (cfg : Cfg) (hc : cfg.Sane) (hb : cfg.block = []) (serial : Nat)
    (evs : List Event) (hf : Fair cfg evs) :
    run cfg (init cfg serial) evs = some (init cfg serial, []) := by
  have hred : cfg.red = 0 := by have := hc.red; rw [hb] at this; simpa using this
  induction evs with
  | nil => rfl
  | cons e evs ih =>
    have h1 : step cfg (init cfg serial) e = some (init cfg serial, []) := by
      cases e with
      | first => simp [step, firstPass, init, hb]
      | next => simp [step, nextCritical, init]
      | report n c r =>
        exfalso
        have := hf n c r (by simp)
        have h1 := this.1.1
        have h2 := this.2
        omega
      | checkpointExpired c => simp [step, checkpointExpired, init]
      | delayExpired => simp [step, delayExpired, init]
    rw [run, h1]
    simp only
    rw [ih fun n c r hm => hf n c r (by simp [hm])]
    rfl

/-! ### C20: checkpoints -/

/-- C20: in every history of fewer than 2^64 events no checkpoint is sent more often than the retry limit
allows; a session is cancelled only with the retry limit as reason, after some checkpoint was sent that
often; and all segments with one checkpoint serial number are copies of one segment. -/
theorem C20_checkpoint_transmissions (cfg : Cfg) (hc : cfg.Sane) (serial : Nat) (hs : serial < 2 ^ 64)
    (evs : List Event) (hf : Fair cfg evs) (hlen : evs.length ≤ 2 ^ 64) :
    ∃ st effs, run cfg (init cfg serial) evs = some (st, effs) ∧
      (∀ csn, transmissions effs csn ≤ cfg.maxRetries + 1) ∧
      (∀ r, Eff.delete true r ∈ effs →
        r = .rlexc ∧ ∃ csn, transmissions effs csn = cfg.maxRetries + 1) ∧
      (∀ s ∈ segments effs, ∀ t ∈ segments effs, ∀ a b c, s.checkpoint = some (a, b) →
        t.checkpoint = some (a, c) →
        b = c ∧ s.flags = t.flags ∧ s.offset = t.offset ∧ s.length = t.length) := by
  obtain ⟨st, effs, issued, h1, h2, h3⟩ := ledger cfg hc serial hs evs hf hlen
  refine ⟨st, effs, h1, h3.bound, fun r hr => ⟨h2.failure r hr, h3.exhausted r hr⟩, ?_⟩
  intro s hs t ht a b c hsc htc
  obtain ⟨g, k1, k2, k3, k4, k5, k6⟩ := h3.sent s hs _ hsc
  obtain ⟨g', l1, l2, l3, l4, l5, l6⟩ := h3.sent t ht _ htc
  have hcount := h3.count
  have hnd := serials_nodup serial issued.length (by omega)
  rw [← h3.csns] at hnd
  have : g = g' := List.inj_on_of_nodup_map hnd k1 l1 (by rw [k2, l2])
  subst this
  simp only at k3 l3
  exact ⟨by rw [← k3, ← l3], by rw [← k4, ← l4], by rw [← k5, ← l5], by rw [← k6, ← l6]⟩

/-- C20: a checkpoint that was sent, that no report answered and some byte of which nobody claimed is
not given up while the session lives: it is sent again soon, without a further time-out or after the next one, or the
session is cancelled, which it is if and only if the checkpoint has been sent as often as the limit allows. -/
theorem C20_checkpoint_timeout (cfg : Cfg) (hc : cfg.Sane) (serial : Nat) (hs : serial < 2 ^ 64)
    (evs : List Event) (hf : Fair cfg evs) (hlen : evs.length ≤ 2 ^ 64) (st : State) (effs : List Eff)
    (hrun : run cfg (init cfg serial) evs = some (st, effs))
    (s : Seg) (hsm : s ∈ segments effs) (csn n x : Nat) (hcp : s.checkpoint = some (csn, n))
    (hx : s.Has x) (hnc : ¬ Claimed evs x) (hna : ∀ m r, Event.report m csn r ∉ evs)
    (hlive : deletions effs = 0) :
    (∃ k st' effs', run cfg (init cfg serial) (evs ++ List.replicate k .next) = some (st', effs ++ effs') ∧
      1 ≤ transmissions effs' csn) ∨
    (transmissions effs csn ≤ cfg.maxRetries ∧
      ∃ k st' effs', run cfg (init cfg serial) (evs ++ .checkpointExpired csn :: List.replicate k .next) =
        some (st', effs ++ effs') ∧ 1 ≤ transmissions effs' csn) ∨
    (transmissions effs csn = cfg.maxRetries + 1 ∧
      ∃ st', run cfg (init cfg serial) (evs ++ [.checkpointExpired csn]) =
        some (st', effs ++ [.delete true .rlexc])) := by
  obtain ⟨st1, effs1, issued, h1, h2, h3⟩ := ledger cfg hc serial hs evs hf hlen
  rw [hrun] at h1
  simp only [Option.some.injEq, Prod.mk.injEq] at h1
  obtain ⟨rfl, rfl⟩ := h1
  obtain ⟨g, k1, k2, k3, k4, k5, k6⟩ := h3.sent s hsm _ hcp
  simp only at k2 k3
  have hdn : st.didNotify = false := by
    have := h2.deletes
    rw [hlive] at this
    cases hd : st.didNotify with
    | false => rfl
    | true => rw [hd] at this; simp at this
  have hxg : g.offset ≤ x ∧ x < g.offset + g.length := by
    simp only [Seg.Has] at hx; rw [k5, k6]; exact hx
  have hall : st.allRed = false := by
    cases ha : st.allRed with
    | false => rfl
    | true =>
      have := h2.inv.allRed ha x (by have := (h3.good g k1).1.inside; omega)
      exact absurd ((h2.claimed x).1 this) hnc
  have hcount := h3.count
  have hnd := serials_nodup serial issued.length (by omega)
  rw [← h3.csns] at hnd
  -- draining the queue sends every entry
  have hdrain : ∀ (stq : State) (effq : List Eff) (evq : List Event), Inv cfg stq → stq.allRed = false →
      run cfg (init cfg serial) evq = some (stq, effs ++ effq) →
      (∃ f ∈ stq.resend, f.flags ≠ 0 ∧ f.checkpoint = csn) →
      ∃ k st' effs', run cfg (init cfg serial) (evq ++ List.replicate k .next) = some (st', effs ++ effs') ∧
        1 ≤ transmissions effs' csn := by
    intro stq effq evq hi ha hr ⟨f, hf, hz, hfc⟩
    obtain ⟨st', d1⟩ := drain cfg hc stq hi ha
    refine ⟨stq.acks.length + stq.resend.length, st', effq ++ (stq.acks.map .ack ++ stq.resend.map fun f => .again (segOf cfg f)), ?_, ?_⟩
    · rw [run_append cfg _ _ _ _ _ hr, d1 _ (Nat.le_refl _)]
      simp
    · have hin : segOf cfg f ∈ segments (effq ++ (stq.acks.map .ack ++
          stq.resend.map fun f => .again (segOf cfg f))) := by
        rw [segments_append, segments_append]
        apply List.mem_append_right
        apply List.mem_append_right
        exact List.mem_filterMap.2 ⟨_, List.mem_map.2 ⟨f, hf, rfl⟩, rfl⟩
      unfold transmissions
      refine List.countP_pos_iff.2 ⟨_, hin, ?_⟩
      simp only [segOf, hz, ne_eq, not_false_eq_true, if_true, Option.map_some, hfc, beq_self_eq_true]
  rcases h3.alive g k1 with hk | hset
  · rcases mem_keys.1 hk with ⟨f, f1, f2, f3⟩ | ⟨f, f1⟩
    · left
      have := hdrain st [] evs h2.inv hall (by rw [List.append_nil]; exact hrun)
        ⟨f, f1, f2, by rw [f3, k2]⟩
      exact this
    · rw [k2] at f1
      obtain ⟨r1, r2⟩ := h3.running _ f1
      simp only at r1 r2
      have hfind := find_unique ((List.nodup_append.1 h3.keys).2.1) f1
      rcases checkpointExpired_spec cfg hc st h2.inv csn with ⟨hno, -⟩ | ⟨f', m1, m2, hcase⟩
      · exact absurd f1 (hno f)
      · rw [hfind] at m2
        simp only [Option.some.injEq, Prod.mk.injEq, true_and] at m2
        subst m2
        have hsame : g.offset = f.offset ∧ g.length = f.length := by
          obtain ⟨g', g1, g2⟩ := h3.timers _ f1
          have : g = g' := List.inj_on_of_nodup_map hnd k1 g1 (by
            rw [k2, ← g2.2.2.1]; exact (h2.inv.timers _ f1).2.2.symm)
          subst this
          exact ⟨g2.1.symm, g2.2.1.symm⟩
        rcases hcase with ⟨c1, c2, -⟩ | ⟨c1, c2⟩ | ⟨c1, c2⟩
        · exact absurd ((h2.claimed x).1 (c2 x (by omega) (by omega))) hnc
        · right; left
          refine ⟨by omega, ?_⟩
          obtain ⟨st', e', hst', hinv'⟩ := step_inv cfg hc st h2.inv (.checkpointExpired csn) trivial
          have hstep : step cfg st (.checkpointExpired csn) = _ := congrArg some c2
          rw [hstep, Option.some.injEq, Prod.mk.injEq] at hst'
          obtain ⟨rfl, rfl⟩ := hst'
          have hr2 := run_snoc cfg _ evs (.checkpointExpired csn) _ _ hrun
          rw [hstep] at hr2
          obtain ⟨k, st', effs', q1, q2⟩ := hdrain _ [.producible] _ hinv' hall hr2
            ⟨{ f with retry := f.retry + 1 }, by simp, (h2.inv.timers _ f1).2.1,
              (h2.inv.timers _ f1).2.2⟩
          refine ⟨k, st', effs', ?_, q2⟩
          rw [← q1]
          simp
        · right; right
          refine ⟨by omega, ?_⟩
          have hr2 := run_snoc cfg _ evs (.checkpointExpired csn) _ _ hrun
          have hstep : step cfg st (.checkpointExpired csn) = _ := congrArg some c2
          rw [hstep, hdn] at hr2
          exact ⟨_, hr2⟩
  · exfalso
    rcases hset with ⟨m, r, hm⟩ | hcl | hd
    · rw [k2] at hm; exact hna m r hm
    · exact hnc (hcl x hxg.1 hxg.2)
    · rw [hdn] at hd; cases hd

/-- The last checkpoint is never answered. -/
def demoSilence : List Event :=
  [.first, .first, .first, .first, .checkpointExpired 7, .next, .checkpointExpired 7, .next]

example : (run demo (init demo 7) demoSilence).map
      (fun p => (transmissions p.2 7, deletions p.2, p.1.timers.map Prod.fst)) = some (3, 0, [7]) ∧
    (run demo (init demo 7) (demoSilence ++ [.checkpointExpired 7])).map
      (fun p => (transmissions p.2 7, p.2.getLast?)) = some (3, some (.delete true .rlexc)) := by
  decide +kernel

/-! ### C60: what is sent again -/

/-- C60: without delay, a report with news is answered by sending again exactly the bytes of its scope that
nobody has claimed, once each and after what was already waiting, the last segment being a
checkpoint that answers the report. Other reports cause nothing to be sent again. -/
theorem C60_resend_exact (cfg : Cfg) (hc : cfg.Sane) (hd : cfg.deferral = false) (serial : Nat)
    (hs : serial < 2 ^ 64) (evs : List Event) (n c : Nat) (r : Report)
    (hf : Fair cfg (evs ++ [.report n c r]))
    (hopen : ∃ y < cfg.red, ¬ Claimed (evs ++ [.report n c r]) y) :
    ∃ st effs K st1 st2 effs1 effs2 again,
      run cfg (init cfg serial) evs = some (st, effs) ∧
      (∀ k ≥ K, run cfg (init cfg serial) (evs ++ List.replicate k .next) = some (st1, effs ++ effs1)) ∧
      (∀ k ≥ K, run cfg (init cfg serial) (evs ++ .report n c r :: List.replicate k .next) =
        some (st2, effs ++ effs2)) ∧
      segments effs2 = segments effs1 ++ again ∧
      (News evs n r → (∀ x, (∃ s ∈ again, s.Has x) ↔
          r.InScope x ∧ ¬ Claimed (evs ++ [.report n c r]) x) ∧ (again = [] ∨ Group n again)) ∧
      (¬ News evs n r → again = []) := by
  obtain ⟨hf1, hf2⟩ := hf.last
  have hr : FairReport cfg r := hf2
  obtain ⟨b1, b2, b3, hrange⟩ := fair_bounds hc hr
  obtain ⟨st, effs, h1, h2⟩ := story cfg hc serial hs evs hf1
  obtain ⟨st', effs', h3, h4⟩ := story_step hc h2 (.report n c r) hf2
  obtain ⟨y, hy, hny⟩ := hopen
  have hall' : st'.allRed = false := by
    cases ha : st'.allRed with
    | false => rfl
    | true => exact absurd ((h4.claimed y).1 (h4.inv.allRed ha y hy)) hny
  have hny0 : ¬ Claimed evs y := fun h => hny ((claimed_snoc _ _ _).2 (.inl h))
  have hall : st.allRed = false := by
    cases ha : st.allRed with
    | false => rfl
    | true => exact absurd ((h2.claimed y).1 (h2.inv.allRed ha y hy)) hny0
  obtain ⟨st1, d1⟩ := drain cfg hc st h2.inv hall
  obtain ⟨st2, d2⟩ := drain cfg hc st' h4.inv hall'
  have hseg : ∀ (acks : List Nat) (q : List Resend),
      segments (acks.map .ack ++ q.map fun f => .again (segOf cfg f)) = q.map (segOf cfg) := by
    intro acks q
    rw [segments_append]
    have e1 : segments (acks.map .ack) = [] := by
      unfold segments
      rw [List.filterMap_eq_nil_iff]
      intro e he
      obtain ⟨a, -, rfl⟩ := List.mem_map.1 he
      rfl
    have e2 : segments (q.map fun f => .again (segOf cfg f)) = q.map (segOf cfg) := by
      unfold segments
      rw [List.filterMap_map]
      induction q with
      | nil => rfl
      | cons f q ih => rw [List.filterMap_cons]; simp [ih]
    rw [e1, e2, List.nil_append]
  have hrun2 : run cfg (init cfg serial) (evs ++ [.report n c r]) = some (st', effs ++ effs') := by
    rw [run_snoc cfg _ _ _ _ _ h1, h3]; rfl
  have hquiet : segments effs' = [] := by
    obtain ⟨st3, effs3, q1, q2, -⟩ := reportSegment_spec cfg hc st h2.inv n c r hr
    have : some (st', effs') = some (st3, effs3) := by rw [← h3, ← q1]; rfl
    simp only [Option.some.injEq, Prod.mk.injEq] at this
    obtain ⟨rfl, rfl⟩ := this
    by_cases hs' : n ∈ st.seen
    · rw [(q2.known hs').2]; split <;> rfl
    · obtain ⟨q, m, pend, le, all, -, -, -, -, -, hdel⟩ := q2.fresh hs'
      rcases hdel with ⟨-, -, -, -, rfl⟩ | ⟨-, -, rfl⟩ <;> split <;> rfl
  have hnews := News.iff h2 (n := n) hrange
  obtain ⟨k1, k2⟩ := report_schedules cfg hc st st' h2.inv effs' n c r hr h3
  have key : ∃ q, st'.resend = st.resend ++ q ∧
      (News evs n r → (∀ x, (∃ s ∈ q.map (segOf cfg), s.Has x) ↔
          r.InScope x ∧ ¬ Claimed (evs ++ [.report n c r]) x) ∧
        (q.map (segOf cfg) = [] ∨ Group n (q.map (segOf cfg)))) ∧
      (¬ News evs n r → q = []) := by
    by_cases hn : News evs n r
    · obtain ⟨g1, g2⟩ := hnews.1 hn
      obtain ⟨s1, i1, i2, i3, i4, i5, i6⟩ := k2 g1 g2
      obtain ⟨c1, c2⟩ := boundsMinus_spec _ b2 s1.acked i1.acked
      have hack : st'.acked = s1.acked := by
        have := (report_ends cfg st st' effs' n c r h3).2.1
        rcases this with ⟨hin, -⟩ | ⟨-, h, -⟩
        · exact absurd hin g1
        · rw [h, i2]
      have hgap : ∀ x, Covers (boundsMinusFragments ⟨r.lower, r.upper - 1⟩ s1.acked) x ↔
          r.InScope x ∧ ¬ Claimed (evs ++ [.report n c r]) x := by
        intro x
        rw [c2 x, inScope_has hr x, ← hack, h4.claimed x]
      have hin : ∀ x, Covers (boundsMinusFragments ⟨r.lower, r.upper - 1⟩ s1.acked) x → x < cfg.red := by
        intro x hx
        have h5 := ((hgap x).1 hx).1
        have h6 := hr.2
        simp only [Report.InScope] at h5
        omega
      rw [scheduleResend] at i6
      simp only [hd, Bool.not_false, if_true] at i6
      rcases resendData_spec cfg hc n s1 _ c1 hin with ⟨e1, e2⟩ | ⟨q, e1, e2, e3⟩
      · rw [i6, Option.some.injEq] at e2
        refine ⟨[], by rw [e2, i5, List.append_nil], fun _ => ⟨fun x => ?_, .inl rfl⟩, fun _ => rfl⟩
        rw [← hgap x, e1]
        simp [covers_nil]
      · rw [i6, Option.some.injEq] at e1
        refine ⟨q, by rw [e1]; simp only [i5], fun _ => ⟨fun x => ?_, .inr e2.group⟩,
          fun h => absurd hn h⟩
        rw [← hgap x, ← e3 x, segOf_has]
    · refine ⟨[], ?_, fun h => absurd h hn, fun _ => rfl⟩
      rw [(k1 (fun hh => hn (hnews.2 hh))).2.2, List.append_nil]
  obtain ⟨q, hq, hq1, hq2⟩ := key
  refine ⟨st, effs, max (st.acks.length + st.resend.length) (st'.acks.length + st'.resend.length), st1, st2,
    st.acks.map .ack ++ st.resend.map fun f => .again (segOf cfg f),
    effs' ++ (st'.acks.map .ack ++ st'.resend.map fun f => .again (segOf cfg f)), q.map (segOf cfg), h1,
    fun k hk => ?_, fun k hk => ?_, ?_, hq1, ?_⟩
  · rw [run_append cfg _ _ _ _ _ h1, d1 k (by omega)]; rfl
  · have : evs ++ .report n c r :: List.replicate k .next = (evs ++ [.report n c r]) ++ List.replicate k .next := by
      simp
    rw [this, run_append cfg _ _ _ _ _ hrun2, d2 k (by omega), Option.map_some, List.append_assoc]
  · rw [segments_append, hquiet, List.nil_append, hseg, hseg, hq, List.map_append]
  · intro h; rw [hq2 h]; rfl

/-- C60: with delay, what is sent again after the delay is exactly the bytes that are in the scope of a
report with news since the last delay and that nobody has claimed in the meantime: once each, in
groups the last segment of which is a checkpoint that answers one of the reports. -/
theorem C60_resend_delayed (cfg : Cfg) (hc : cfg.Sane) (hd : cfg.deferral = true) (serial : Nat)
    (hs : serial < 2 ^ 64) (evs : List Event) (hf : Fair cfg evs)
    (hopen : ∃ y < cfg.red, ¬ Claimed evs y) :
    ∃ st effs K st1 st2 effs1 effs2 again,
      run cfg (init cfg serial) evs = some (st, effs) ∧
      (∀ k ≥ K, run cfg (init cfg serial) (evs ++ List.replicate k .next) = some (st1, effs ++ effs1)) ∧
      (∀ k ≥ K, run cfg (init cfg serial) (evs ++ .delayExpired :: List.replicate k .next) =
        some (st2, effs ++ effs2)) ∧
      segments effs2 = segments effs1 ++ again ∧
      (∀ x, (∃ s ∈ again, s.Has x) ↔ Waiting evs x ∧ ¬ Claimed evs x) ∧
      (again.Pairwise fun s t => ∀ x, ¬ (s.Has x ∧ t.Has x)) ∧
      (∃ groups : List (Nat × List Seg), again = (groups.map Prod.snd).flatten ∧
        ∀ p ∈ groups, Group p.1 p.2 ∧ ∃ c r, Event.report p.1 c r ∈ evs) := by
  obtain ⟨st, effs, h1, h2, h3⟩ := owes cfg hc hd serial hs evs hf
  obtain ⟨st', effs', h4, h5⟩ := story_step hc h2 .delayExpired trivial
  obtain ⟨y, hy, hny⟩ := hopen
  have hall : st.allRed = false := by
    cases ha : st.allRed with
    | false => rfl
    | true => exact absurd ((h2.claimed y).1 (h2.inv.allRed ha y hy)) hny
  have hseg : ∀ (acks : List Nat) (q : List Resend),
      segments (acks.map .ack ++ q.map fun f => .again (segOf cfg f)) = q.map (segOf cfg) := by
    intro acks q
    rw [segments_append]
    have e1 : segments (acks.map .ack) = [] := by
      unfold segments
      rw [List.filterMap_eq_nil_iff]
      intro e he
      obtain ⟨a, -, rfl⟩ := List.mem_map.1 he
      rfl
    have e2 : segments (q.map fun f => .again (segOf cfg f)) = q.map (segOf cfg) := by
      unfold segments
      rw [List.filterMap_map]
      induction q with
      | nil => rfl
      | cons f q ih => rw [List.filterMap_cons]; simp [ih]
    rw [e1, e2, List.nil_append]
  have hrun2 : run cfg (init cfg serial) (evs ++ [.delayExpired]) = some (st', effs ++ effs') := by
    rw [run_snoc cfg _ _ _ _ _ h1, h4]; rfl
  obtain ⟨c1, c2, c3⟩ := C12_reduce st.acked h2.inv.acked st.pending (fun p hp => (h2.inv.pending p hp).1)
  have hdue : ∀ x, ((∃ p ∈ st.pending, p.1.Has x) ∧ ¬ Covers st.acked x) ↔
      Waiting evs x ∧ ¬ Claimed evs x := by
    intro x
    rw [h2.claimed x]
    constructor
    · rintro ⟨k1, k2⟩; exact ⟨h3.sound x k1, k2⟩
    · rintro ⟨k1, k2⟩; exact ⟨h3.complete x k1 k2, k2⟩
  have key : ∃ q, st'.resend = st.resend ++ q ∧ st'.allRed = st.allRed ∧ segments effs' = [] ∧
      (∀ x, (∃ s ∈ q.map (segOf cfg), s.Has x) ↔ Waiting evs x ∧ ¬ Claimed evs x) ∧
      ((q.map (segOf cfg)).Pairwise fun s t => ∀ x, ¬ (s.Has x ∧ t.Has x)) ∧
      (∃ groups : List (Nat × List Seg), q.map (segOf cfg) = (groups.map Prod.snd).flatten ∧
        ∀ p ∈ groups, Group p.1 p.2 ∧ ∃ c r, Event.report p.1 c r ∈ evs) := by
    rcases delayExpired_spec cfg hc st h2.inv with ⟨hp, k⟩ | ⟨-, q, n, k, -, -, -, hb⟩ <;>
      rw [step, k] at h4 <;> simp only [Option.some.injEq, Prod.mk.injEq] at h4 <;>
      obtain ⟨rfl, rfl⟩ := h4
    · refine ⟨[], by simp, rfl, rfl, fun x => ?_, by simp, [], by simp, by simp⟩
      rw [← hdue x, hp]
      simp
    · obtain ⟨⟨groups, g1, g2, g3⟩, g4, g5⟩ := hb.groups c2
      refine ⟨q, rfl, rfl, by split <;> rfl, fun x => ?_, g5, groups, g1, fun p hp => ⟨g3 p hp, ?_⟩⟩
      · rw [g4 x, c1 x, hdue x]
      · have hm : p.1 ∈ (reduce st.pending st.acked).map Prod.fst := by
          rw [← g2]; exact List.mem_map.2 ⟨p, hp, rfl⟩
        obtain ⟨e, he, hee⟩ := List.mem_map.1 hm
        obtain ⟨-, -, w, hw1, hw2, -⟩ := c3 e he
        rw [← hee, ← hw2]
        exact h3.serials w hw1
  obtain ⟨q, hq, hal, hquiet, hq1, hq2, hq3⟩ := key
  obtain ⟨st1, d1⟩ := drain cfg hc st h2.inv hall
  obtain ⟨st2, d2⟩ := drain cfg hc st' h5.inv (by rw [hal]; exact hall)
  refine ⟨st, effs, max (st.acks.length + st.resend.length) (st'.acks.length + st'.resend.length), st1, st2,
    st.acks.map .ack ++ st.resend.map fun f => .again (segOf cfg f),
    effs' ++ (st'.acks.map .ack ++ st'.resend.map fun f => .again (segOf cfg f)), q.map (segOf cfg), h1,
    fun k hk => ?_, fun k hk => ?_, ?_, hq1, hq2, hq3⟩
  · rw [run_append cfg _ _ _ _ _ h1, d1 k (by omega)]; rfl
  · have : evs ++ .delayExpired :: List.replicate k .next = (evs ++ [.delayExpired]) ++ List.replicate k .next := by
      simp
    rw [this, run_append cfg _ _ _ _ _ hrun2, d2 k (by omega), Option.map_some, List.append_assoc]
  · rw [segments_append, hquiet, List.nil_append, hseg, hseg, hq, List.map_append]

example : (run demoDelay (init demoDelay 7) [.first, .first, .first, .first,
      .report 1 7 ⟨0, 8, [⟨6, 2⟩]⟩, .report 2 7 ⟨0, 8, [⟨1, 1⟩]⟩, .delayExpired, .next, .next, .next, .next,
      .next, .next]).map (fun p => (segments p.2).drop 4) =
    some [⟨0, 1, 0, 1, none, some [0]⟩, ⟨0, 1, 2, 3, none, some [2, 3, 4]⟩,
      ⟨1, 1, 5, 1, some (8, 1), some [5]⟩] := by
  decide +kernel

/-- C60 fails for a report with a scope beyond the red part: bytes outside the block are read. -/
theorem C60_scope_violated :
    run demo (init demo 7) [.first, .first, .first, .first, .report 1 7 ⟨0, 12, [⟨0, 3⟩]⟩, .next,
      .next, .next, .next] = none := by
  decide +kernel

/-- C60 fails for a report with upper bound 0: the session keeps adding to its queue for ever. -/
theorem C60_endless_violated :
    run demo (init demo 7) [.first, .first, .first, .first, .report 1 7 ⟨0, 0, [⟨0, 3⟩]⟩] = none := by
  have h0 : (run demo (init demo 7) [.first, .first, .first, .first]).map
      (fun p => (p.1.seen, p.1.acked, p.1.allRed)) = some ([], [], false) := by decide +kernel
  obtain ⟨⟨st, effs⟩, h1, h2⟩ := Option.map_eq_some_iff.1 h0
  simp only [Prod.mk.injEq] at h2
  obtain ⟨k1, k2, k3⟩ := h2
  have h3 := run_snoc demo (init demo 7) [.first, .first, .first, .first]
    (.report 1 7 ⟨0, 0, [⟨0, 3⟩]⟩) _ _ h1
  have h4 : ∀ s, resendData demo 1 s [⟨3, 18446744073709551615⟩] = none := by
    intro s
    have : pieces 3 3 18446744073709551615 = none := by
      rw [pieces, if_neg (by decide), dif_pos (by decide)]
    rw [resendData]
    simp only [demo]
    rw [this]
  have h5 : step demo st (.report 1 7 ⟨0, 0, [⟨0, 3⟩]⟩) = none := by
    have a1 : addReport [] ⟨0, 0, [⟨0, 3⟩]⟩ = ([⟨0, 2⟩], true) := by decide +kernel
    have a2 : redAcked demo [⟨0, 2⟩] = false := by decide +kernel
    have a3 : boundsMinusFragments ⟨0, sub64 0 1⟩ [⟨0, 2⟩] = [⟨3, 18446744073709551615⟩] := by
      decide +kernel
    have a4 : demo.deferral = false := rfl
    rw [step, reportSegment]
    simp only [k1, k2, a1, List.not_mem_nil, if_false, if_true, newClaims, k3, a2, Bool.or_self,
      Bool.false_eq_true, and_false, scheduleResend, a3, a4, Bool.not_false, h4]
  rw [h5] at h3
  exact h3

end Hdtn.LtpSender
