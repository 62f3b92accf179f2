import Verif.EncapDuct.Lemmas
import Verif.Encap.Props
import Mathlib.Tactic.SplitIfs
import Mathlib.Tactic.ByContra

/-!
Properties C160 to C162: bundles over encapsulation packets on a local stream.
-/

namespace Hdtn.EncapDuct

open Spec Hdtn.Encap Hdtn.Encap.Spec

/-- C160: every bundle that was accepted is reported as sent, is returned as failed, or waits: exactly one of these, and in the order of acceptance. -/
theorem C160_once (limit : Nat) (evs : List Ev) :
    let s := ({ limit := limit } : Out).run evs
    ∃ ok : List (Nat × Bytes), s.done = ok.map Prod.fst ∧ accepted s = ok ++ s.back ++ waiting s := by
  intro s
  obtain ⟨ok, h⟩ := reach limit evs
  refine ⟨ok.map fun x => x.2.pair, ?_, h.split⟩
  rw [List.map_map]
  exact h.done

/-- A bundle of one byte goes all the way. -/
private def one1 (u : Nat) : List Ev := [.forward u [7], .post, .written]

example : let s := ({ limit := 3 } : Out).run ([.up] ++ one1 5 ++ one1 6 ++ [.forward 7 [1, 2], .forward 8 [3], .forward 9 [4], .post, .broken 2, .post])
    s.done = [5, 6] ∧ s.back = [(7, [1, 2]), (8, [3])] ∧ waiting s = [(9, [4])] ∧ accepted s = [(5, [7]), (6, [7]), (7, [1, 2]), (8, [3]), (9, [4])] := by decide +kernel

/-- What was accepted had been handed over. -/
theorem accepted_mem (evs : List Ev) : ∀ (s : Out) (p : Nat × Bytes), p ∈ accepted (s.run evs) → p ∈ accepted s ∨ Ev.forward p.1 p.2 ∈ evs := by
  induction evs with
  | nil => intro s p h; exact .inl h
  | cons ev evs ih =>
    intro s p h
    rcases ih (s.step ev) p h with h | h
    · have same : (s.step ev).results = s.results → p ∈ accepted s ∨ Ev.forward p.1 p.2 ∈ ev :: evs := by
        intro hs
        rw [accepted_same hs] at h
        exact .inl h
      have tr : ∀ s : Out, s.trySend.results = s.results := by
        intro s; unfold Out.trySend
        split
        · rfl
        · split_ifs <;> rfl
      cases ev with
      | forward u b =>
        simp only [Out.step] at h
        unfold Out.forward at h
        simp only at h
        have no : p ∈ accepted { s with results := s.results ++ [(u, b, false)] } → p ∈ accepted s ∨ Ev.forward p.1 p.2 ∈ Ev.forward u b :: evs := by
          intro h
          rw [accepted_no (s := s) (u := u) (b := b) rfl] at h
          exact .inl h
        split_ifs at h with h1 h2
        · exact no h
        · exact no h
        · cases he : encode .bp (b.length % U32) with
          | none => rw [he] at h; exact no h
          | some header =>
            rw [he] at h
            simp only at h
            rw [accepted_yes (s := s) (u := u) (b := b) rfl] at h
            rcases List.mem_append.mp h with h | h
            · exact .inl h
            · rw [List.mem_singleton] at h
              rw [h]; exact .inr List.mem_cons_self
      | post =>
        refine same ?_
        simp only [Out.step]; unfold Out.post
        split_ifs
        · rfl
        · rw [tr]
      | written =>
        refine same ?_
        simp only [Out.step]; unfold Out.written
        split
        · rw [tr]
        · rfl
      | broken k =>
        refine same ?_
        simp only [Out.step]; unfold Out.broken
        split
        · rw [tr]
        · rfl
      | up => exact same rfl
      | down => exact same rfl
    · exact .inr (List.mem_cons_of_mem _ h)

theorem framed_of {e : Entry} (h : encode .bp (e.bundle.length % U32) = some e.header) (hf : Fits e.bundle) : Framed .bp (e.header, e.bundle) := by
  unfold Fits at hf
  rw [Nat.mod_eq_of_lt (by unfold U32; omega)] at h
  exact ⟨h, by decide⟩

theorem stream_frames (l : List Entry) : stream (l.map fun e => (e.header, e.bundle)) = (l.map Entry.bytes).flatten := by
  unfold stream
  rw [List.map_map]
  rfl

/-- C160, as far as it holds: whatever a receiver on some connection has read, and in whatever pieces, the bundles it delivers are among those that were accepted, in their order
and none of them twice. Missing: bundles of nearly 4 GiB and more, whose size is cut (C120). -/
theorem C160_in_order_partial (limit : Nat) (evs : List Ev) (hf : AllFit evs) (c : Nat) (auto : Bool) (ops : List Op) (hc : connected ops)
    (hr : received ops <+: onConnection (({ limit := limit } : Out).run evs) c) (max : Nat) :
    (deliver max ((Rx.connected .bp false auto).run ops).out).Sublist ((accepted (({ limit := limit } : Out).run evs)).map Prod.snd) := by
  obtain ⟨ok, h⟩ := reach limit evs
  have hfit : ∀ p ∈ accepted (({ limit := limit } : Out).run evs), Fits p.2 := by
    intro p hp
    rcases accepted_mem evs _ p hp with hp | hp
    · cases hp
    · exact hf _ _ hp
  generalize ({ limit := limit } : Out).run evs = s at h hr hfit ⊢
  -- a list of entries whose bundles begin those that were accepted, and whose bytes contain what was written on the connection
  have key : ∃ l : List Entry, (l.map Entry.bundle).Sublist ((accepted s).map Prod.snd) ∧ (∀ e ∈ l, Framed .bp (e.header, e.bundle)) ∧
      onConnection s c <+: stream (l.map fun e => (e.header, e.bundle)) := by
    let mine := (ok.filter fun x => x.1 = c).map Prod.snd
    have hsub : (mine.map Entry.bundle).Sublist ((ok.map fun x => x.2.pair).map Prod.snd) := by
      have : (mine.map Entry.bundle) = (ok.filter fun x => x.1 = c).map fun x => x.2.bundle := by
        simp only [mine, List.map_map]; rfl
      rw [this, List.map_map]
      exact List.Sublist.map _ List.filter_sublist
    have hfr : ∀ e ∈ mine, Framed .bp (e.header, e.bundle) := by
      intro e he
      obtain ⟨x, hx, rfl⟩ := List.mem_map.mp he
      have hx := (List.mem_filter.mp hx).1
      refine framed_of (h.headers.1 x hx) (hfit x.2.pair ?_)
      rw [h.split]
      exact List.mem_append_left _ (List.mem_append_left _ (List.mem_map_of_mem hx))
    have hwire : ((((ok.map fun x => (x.1, x.2.bytes)).filter fun x => x.1 = c).map Prod.snd).flatten) = stream (mine.map fun e => (e.header, e.bundle)) := by
      rw [stream_frames]
      simp only [mine, List.filter_map, List.map_map]
      rfl
    by_cases he : s.error = true
    · obtain ⟨c', e, k, g1, g2, g3⟩ := h.broken he
      have hpre : ∃ rest, s.back ++ s.ring.map Entry.pair = e.pair :: rest := by
        cases hb : s.back ++ s.ring.map Entry.pair with
        | nil => rw [hb] at g3; cases g3
        | cons x rest =>
          rw [hb] at g3
          simp only [List.head?_cons, Option.some.injEq] at g3
          exact ⟨rest, by rw [g3]⟩
      obtain ⟨rest, hpre⟩ := hpre
      have hacc : accepted s = (ok.map fun x => x.2.pair) ++ e.pair :: rest := by
        rw [h.split, List.append_assoc, hpre]
      have hfe : Framed .bp (e.header, e.bundle) := by
        refine framed_of g1 (hfit e.pair ?_)
        rw [hacc]
        exact List.mem_append_right _ List.mem_cons_self
      have hon : onConnection s c <+: stream ((mine ++ [e]).map fun e => (e.header, e.bundle)) := by
        unfold onConnection
        rw [g2, List.filter_append, List.map_append, List.flatten_append, hwire]
        have hs2 : stream ((mine ++ [e]).map fun e => (e.header, e.bundle)) = stream (mine.map fun e => (e.header, e.bundle)) ++ e.bytes := by
          rw [stream_frames, stream_frames]; simp
        rw [hs2]
        refine List.prefix_append_right_inj _ |>.mpr ?_
        by_cases hcc : c' = c
        · simpa [hcc] using List.take_prefix k e.bytes
        · simp [hcc]
      refine ⟨mine ++ [e], ?_, ?_, hon⟩
      · rw [hacc, List.map_append, List.map_append]
        refine hsub.append ?_
        simp [Entry.pair]
      · intro x hx
        rcases List.mem_append.mp hx with hx | hx
        · exact hfr x hx
        · rw [List.mem_singleton.mp hx]; exact hfe
    · have hcl := h.clean (by simpa using he)
      refine ⟨mine, ?_, hfr, ?_⟩
      · rw [h.split, List.append_assoc, List.map_append]
        exact hsub.trans (List.sublist_append_left _ _)
      · unfold onConnection
        rw [hcl.2, hwire]
        exact List.prefix_refl _
  obtain ⟨l, h1, h2, h3⟩ := key
  obtain ⟨k, -, hout⟩ := C120_in_order_partial .bp false auto (by decide) (l.map fun e => (e.header, e.bundle))
    (by intro x hx; obtain ⟨e, he, rfl⟩ := List.mem_map.mp hx; exact h2 e he) ops hc (hr.trans h3)
  rw [hout]
  unfold deliver
  refine List.filter_sublist.trans (List.Sublist.trans ?_ h1)
  rw [← List.map_take, List.map_map, List.map_map]
  exact List.Sublist.map _ (List.take_sublist k l)

/-- On one connection without errors. -/
theorem one_connection (evs : List Ev) (hu : .up ∉ evs) (he : NoError evs) : ∀ s : Out, s.conn = 1 → s.error = false → (∀ c, s.writing = some c → c = 1) → (∀ x ∈ s.wire, x.1 = 1) →
    (∀ x ∈ (s.run evs).wire, x.1 = 1) ∧ (s.run evs).error = false := by
  induction evs with
  | nil => intro s _ h2 _ h4; exact ⟨h4, h2⟩
  | cons ev evs ih =>
    intro s h1 h2 h3 h4
    have go := ih (fun hc => hu (List.mem_cons_of_mem _ hc)) (fun k hc => he k (List.mem_cons_of_mem _ hc)) (s.step ev)
    have tr : ∀ s : Out, s.conn = 1 → s.error = false → (∀ c, s.writing = some c → c = 1) → (∀ x ∈ s.wire, x.1 = 1) →
        s.trySend.conn = 1 ∧ s.trySend.error = false ∧ (∀ c, s.trySend.writing = some c → c = 1) ∧ ∀ x ∈ s.trySend.wire, x.1 = 1 := by
      intro s h1 h2 h3 h4
      unfold Out.trySend
      split
      · exact ⟨h1, h2, h3, h4⟩
      · rw [h2]
        simp only [Bool.false_eq_true, if_false]
        split_ifs
        · exact ⟨h1, h2, h3, h4⟩
        · refine ⟨h1, rfl, ?_, h4⟩
          intro c hc
          simp only [Option.some.injEq] at hc
          omega
    have : (s.step ev).conn = 1 ∧ (s.step ev).error = false ∧ (∀ c, (s.step ev).writing = some c → c = 1) ∧ ∀ x ∈ (s.step ev).wire, x.1 = 1 := by
      cases ev with
      | forward u b =>
        simp only [Out.step]; unfold Out.forward
        simp only
        split_ifs
        · exact ⟨h1, h2, h3, h4⟩
        · exact ⟨h1, h2, h3, h4⟩
        · split <;> exact ⟨h1, h2, h3, h4⟩
      | post =>
        simp only [Out.step]; unfold Out.post
        split_ifs
        · exact ⟨h1, h2, h3, h4⟩
        · exact tr { s with posts := s.posts - 1 } h1 h2 h3 h4
      | written =>
        simp only [Out.step]; unfold Out.written
        split
        · rename_i c e rest hw hr
          refine tr _ h1 h2 (fun c hc => (nomatch hc)) ?_
          intro x hx
          rcases List.mem_append.mp hx with hx | hx
          · exact h4 x hx
          · rw [List.mem_singleton.mp hx]; exact h3 c hw
        · exact ⟨h1, h2, h3, h4⟩
      | broken k => exact absurd List.mem_cons_self (he k)
      | up => exact absurd List.mem_cons_self hu
      | down => exact ⟨h1, h2, h3, h4⟩
    exact go this.1 this.2.1 this.2.2.1 this.2.2.2

/-- C160, as far as it holds: if no write fails, a receiver that has read all that was written on the connection has delivered exactly the bundles that were reported as sent, but for those longer than
its limit. Missing: bundles of nearly 4 GiB and more; several connections. -/
theorem C160_arrives_partial (limit : Nat) (evs : List Ev) (hu : .up ∉ evs) (he : NoError evs) (hf : AllFit evs) (ops : List Op) (hc : connected ops)
    (hr : received ops = onConnection (({ limit := limit } : Out).run (.up :: evs)) 1) (max : Nat) :
    let s := ({ limit := limit } : Out).run (.up :: evs)
    deliver max ((Rx.connected .bp false true).run ops).out = (((accepted s).take s.done.length).map Prod.snd).filter fun b => b.length ≤ max := by
  intro s
  obtain ⟨ok, h⟩ := reach limit (.up :: evs)
  have hone := one_connection evs hu he (({ limit := limit } : Out).step .up) rfl rfl (fun c hc => (nomatch hc)) (fun x hx => (nomatch hx))
  have h : Inv s ok := h
  have hw : ∀ x ∈ s.wire, x.1 = 1 := hone.1
  have hcl := h.clean hone.2
  have hr : received ops = onConnection s 1 := hr
  have hfit : ∀ p ∈ accepted s, Fits p.2 := by
    intro p hp
    rcases accepted_mem (.up :: evs) _ p hp with hp | hp
    · cases hp
    · rcases List.mem_cons.mp hp with hp | hp
      · cases hp
      · exact hf _ _ hp
  have hon : onConnection s 1 = stream ((ok.map Prod.snd).map fun e => (e.header, e.bundle)) := by
    unfold onConnection
    rw [List.filter_eq_self.mpr (by intro x hx; simpa using hw x hx), hcl.2, stream_frames]
    simp only [List.map_map]; rfl
  rw [C120_all_partial .bp false (by decide) ((ok.map Prod.snd).map fun e => (e.header, e.bundle)) ?_ ops hc (hr.trans hon)]
  · have hlen : s.done.length = (ok.map fun x => x.2.pair).length := by rw [h.done]; simp
    rw [h.split, List.append_assoc, hlen, List.take_left' rfl]
    unfold deliver
    simp only [List.map_map]
    rfl
  · intro x hx
    obtain ⟨e, he', rfl⟩ := List.mem_map.mp hx
    obtain ⟨y, hy, rfl⟩ := List.mem_map.mp he'
    refine framed_of (h.headers.1 y hy) (hfit y.2.pair ?_)
    rw [h.split]
    exact List.mem_append_left _ (List.mem_append_left _ (List.mem_map_of_mem hy))

example : let evs := one1 5 ++ one1 6 ++ [.forward 7 [1, 2]]
    let s := ({ limit := 3 } : Out).run (.up :: evs)
    s.done = [5, 6] ∧ onConnection s 1 = [0xf1, 3, 7, 0xf1, 3, 7] ∧ deliver 9 ((Rx.connected .bp false true).run [.bytes [0xf1, 3], .bytes [7, 0xf1, 3, 7]]).out = [[7], [7]] := by
  decide +kernel

/-- C160: as long as bundles wait, a write is in progress or a call that goes on is posted. -/
theorem C160_no_stall (limit : Nat) (evs : List Ev) :
    let s := ({ limit := limit } : Out).run evs
    waiting s ≠ [] → 0 < s.posts ∨ s.writing ≠ none := by
  intro s hw
  obtain ⟨ok, h⟩ := reach limit evs
  exact h.go fun hc => hw (by unfold waiting; show List.map _ s.ring = []; rw [show s.ring = [] from hc]; rfl)

/-- C160: a failed write ends the outduct. No bundle is ever written or reported as sent after it, whatever happens, new connections included; yet bundles are accepted whenever there is a connection. -/
theorem C160_forever_violated (limit : Nat) (evs : List Ev) (he : (({ limit := limit } : Out).run evs).error = true) (more : List Ev) :
    let s := ({ limit := limit } : Out).run evs
    (s.run more).done = s.done ∧ (s.run more).wire = s.wire ∧ (s.run more).error = true := by
  intro s
  obtain ⟨ok, h⟩ := reach limit evs
  have h : Inv s ok := h
  have gen : ∀ (more : List Ev) (s : Out), s.error = true → s.writing = none → (s.run more).done = s.done ∧ (s.run more).wire = s.wire ∧ (s.run more).error = true := by
    intro more
    induction more with
    | nil => intro s h1 _; exact ⟨rfl, rfl, h1⟩
    | cons ev more ih =>
      intro s h1 h2
      have tr : ∀ s : Out, s.error = true → s.writing = none → s.trySend.error = true ∧ s.trySend.writing = none ∧ s.trySend.done = s.done ∧ s.trySend.wire = s.wire := by
        intro s h1 h2
        unfold Out.trySend
        split
        · exact ⟨h1, h2, rfl, rfl⟩
        · rw [if_pos h1]; exact ⟨h1, h2, rfl, rfl⟩
      have : (s.step ev).error = true ∧ (s.step ev).writing = none ∧ (s.step ev).done = s.done ∧ (s.step ev).wire = s.wire := by
        cases ev with
        | forward u b =>
          simp only [Out.step]; unfold Out.forward
          simp only
          split_ifs
          · exact ⟨h1, h2, rfl, rfl⟩
          · exact ⟨h1, h2, rfl, rfl⟩
          · split <;> exact ⟨h1, h2, rfl, rfl⟩
        | post =>
          simp only [Out.step]; unfold Out.post
          split_ifs
          · exact ⟨h1, h2, rfl, rfl⟩
          · exact tr { s with posts := s.posts - 1 } h1 h2
        | written => simp only [Out.step]; unfold Out.written; rw [h2]; exact ⟨h1, h2, rfl, rfl⟩
        | broken k => simp only [Out.step]; unfold Out.broken; rw [h2]; exact ⟨h1, h2, rfl, rfl⟩
        | up => exact ⟨h1, h2, rfl, rfl⟩
        | down => exact ⟨h1, h2, rfl, rfl⟩
      obtain ⟨i1, i2, i3⟩ := ih (s.step ev) this.1 this.2.1
      exact ⟨i1.trans this.2.2.1, i2.trans this.2.2.2, i3⟩
  exact gen more s he (h.quiet he)

example : let s := ({ limit := 3 } : Out).run [.up, .forward 1 [7], .post, .broken 1, .down, .up, .forward 2 [8], .post, .post]
    s.error = true ∧ s.ready = true ∧ accepted s = [(1, [7]), (2, [8])] ∧ s.back = [(1, [7]), (2, [8])] := by decide +kernel

/-- C161: a bundle is accepted exactly if there is a connection, fewer than the configured number and four more wait, and it has a size that an encapsulation packet can have. A
refused bundle changes nothing. -/
theorem C161_accepts_partial (s : Out) (u : Nat) (b : Bytes) (hb : b.length < 2 ^ 32) :
    let yes := s.ready = true ∧ (waiting s).length < s.limit + 4 ∧ 0 < b.length ∧ b.length ≤ 4294967287
    (s.forward u b).results = s.results ++ [(u, b, decide yes)] ∧ (yes → waiting (s.forward u b) = waiting s ++ [(u, b)]) ∧
      (¬yes → s.forward u b = { s with results := s.results ++ [(u, b, false)] }) := by
  intro yes
  have hlen : (waiting s).length = s.ring.length := by unfold waiting; rw [List.length_map]
  have hm : b.length % U32 = b.length := Nat.mod_eq_of_lt (by unfold U32; omega)
  have no : s.forward u b = { s with results := s.results ++ [(u, b, false)] } → ¬yes →
      (s.forward u b).results = s.results ++ [(u, b, decide yes)] ∧ (yes → waiting (s.forward u b) = waiting s ++ [(u, b)]) ∧
      (¬yes → s.forward u b = { s with results := s.results ++ [(u, b, false)] }) := by
    intro h1 h2
    rw [h1, decide_eq_false h2]
    exact ⟨rfl, fun h => absurd h h2, fun _ => rfl⟩
  by_cases h1 : s.ready = false
  · refine no ?_ (fun h => ?_)
    · unfold Out.forward; simp only; rw [if_pos h1]
    · have := h.1; rw [h1] at this; exact absurd this (by decide)
  · by_cases h2 : s.limit + 5 ≤ s.ring.length + 1
    · refine no ?_ (fun h => ?_)
      · unfold Out.forward; simp only; rw [if_neg h1, if_pos h2]
      · have := h.2.1; omega
    · cases he : encode .bp (b.length % U32) with
      | none =>
        refine no ?_ (fun h => ?_)
        · unfold Out.forward; simp only; rw [if_neg h1, if_neg h2, he]
        · rw [hm, C119_refused] at he
          have := h.2.2
          rcases he with he | he | he
          · omega
          · omega
          · exact absurd he.2 (by decide)
      | some header =>
        have hy : yes := by
          refine ⟨by simpa using h1, by omega, ?_⟩
          have : ¬(4294967287 < b.length ∨ (b.length = 0 ∧ Kind.bp ≠ .idle) ∨ (b.length ≠ 0 ∧ Kind.bp = .idle)) := by
            rw [← C119_refused, ← hm, he]; simp
          have h0 : b.length ≠ 0 := fun h => this (.inr (.inl ⟨h, by decide⟩))
          have h3 : ¬4294967287 < b.length := fun h => this (.inl h)
          omega
        unfold Out.forward; simp only
        rw [if_neg h1, if_neg h2, he, decide_eq_true hy]
        refine ⟨rfl, fun _ => ?_, fun h => absurd hy h⟩
        unfold waiting; simp

example : let s := ({ limit := 0 } : Out).run [.up, .forward 1 [1], .forward 2 [], .forward 3 [1], .forward 4 [1], .forward 5 [1], .forward 6 [1]]
    s.results.map (fun r => (r.1, r.2.2)) = [(1, true), (2, false), (3, true), (4, true), (5, true), (6, false)] := by decide +kernel

/-- C161 does not hold: whatever the configured number is, four bundles more are accepted. -/
theorem C161_limit_violated (limit : Nat) : ∃ evs, NoError evs ∧ (waiting (({ limit := limit } : Out).run evs)).length = limit + 4 := by
  have gen : ∀ k, k ≤ limit + 4 → ∃ s, s = ({ limit := limit } : Out).run (.up :: List.replicate k (.forward 1 [7])) ∧ s.ready = true ∧ s.limit = limit ∧ (waiting s).length = k := by
    intro k
    induction k with
    | zero => intro _; exact ⟨_, rfl, rfl, rfl, rfl⟩
    | succ k ih =>
      intro hk
      obtain ⟨s, h1, h2, h3, h4⟩ := ih (by omega)
      refine ⟨s.forward 1 [7], ?_, ?_, ?_, ?_⟩
      · rw [List.replicate_succ', ← List.cons_append]
        unfold Out.run at h1 ⊢
        rw [List.foldl_append, ← h1]; rfl
      · unfold Out.forward; simp only; split_ifs <;> first | exact h2 | (split <;> exact h2)
      · unfold Out.forward; simp only; split_ifs <;> first | exact h3 | (split <;> exact h3)
      · have := (C161_accepts_partial s 1 [7] (by decide)).2.1 ⟨h2, by omega, by decide, by decide⟩
        rw [this]; simp [h4]
  obtain ⟨s, h1, -, -, h4⟩ := gen (limit + 4) (Nat.le_refl _)
  refine ⟨_, ?_, h1 ▸ h4⟩
  intro k hc
  rcases List.mem_cons.mp hc with hc | hc
  · cases hc
  · cases List.eq_of_mem_replicate hc

/-- C161: bundles and bytes are counted as they were accepted, reported as sent and returned. (Counts below 2 ^ 64.) -/
theorem C161_counts (limit : Nat) (evs : List Ev) :
    let s := ({ limit := limit } : Out).run evs
    s.sent = (accepted s).length ∧ s.acked = s.done.length ∧ s.failed = s.back.length ∧
      s.bytesSent = ((accepted s).map fun x => x.2.length).sum ∧ s.bytesAcked = (((accepted s).take s.done.length).map fun x => x.2.length).sum := by
  intro s
  obtain ⟨ok, h⟩ := reach limit evs
  have h : Inv s ok := h
  refine ⟨h.counts.1, h.counts.2.1, h.counts.2.2, h.bytes.1, ?_⟩
  have hlen : s.done.length = (ok.map fun x => x.2.pair).length := by rw [h.done]; simp
  rw [h.bytes.2, hlen, h.split, List.append_assoc, List.take_left' rfl, List.map_map]
  rfl

/-- C161: the number of unacknowledged bundles: those that wait, and those that were returned as failed. -/
theorem C161_unacked (limit : Nat) (evs : List Ev) :
    let s := ({ limit := limit } : Out).run evs
    s.unacked = (waiting s).length + s.back.length := by
  intro s
  obtain ⟨ok, h⟩ := reach limit evs
  have h : Inv s ok := h
  unfold Out.unacked
  rw [h.counts.1, h.counts.2.1, h.split, h.done]
  unfold waiting
  simp only [List.length_append, List.length_map]
  omega

/-- C161 does not hold: bundles that were returned as failed count as unacknowledged for ever, so that `Stop` waits for them in vain. -/
theorem C161_failed_violated (limit : Nat) : ∃ evs, waiting (({ limit := limit } : Out).run evs) = [] ∧ (({ limit := limit } : Out).run evs).back = [(1, [7])] ∧
    ∀ more, 0 < ((({ limit := limit } : Out).run evs).run more).unacked := by
  refine ⟨[.up, .forward 1 [7], .post, .broken 0], ?_⟩
  have he : encode .bp 1 = some [0xf1, 3] := by decide
  have hw : waiting (({ limit := limit } : Out).run [.up, .forward 1 [7], .post, .broken 0]) = [] ∧ (({ limit := limit } : Out).run [.up, .forward 1 [7], .post, .broken 0]).back = [(1, [7])] := by
    simp [waiting, Out.run, Out.step, Out.forward, Out.post, Out.trySend, Out.broken, he, show (1 : Nat) % U32 = 1 from by decide]
  refine ⟨hw.1, hw.2, fun more => ?_⟩
  have hback : ∀ (more : List Ev) (s : Out), s.back ≠ [] → (s.run more).back ≠ [] := by
    intro more
    induction more with
    | nil => intro s h; exact h
    | cons ev more ih =>
      intro s h
      refine ih (s.step ev) ?_
      have tr : ∀ s : Out, s.back ≠ [] → s.trySend.back ≠ [] := by
        intro s h
        unfold Out.trySend
        split
        · exact h
        · split_ifs
          · simp
          · exact h
          · exact h
      cases ev with
      | forward u b =>
        simp only [Out.step]; unfold Out.forward
        simp only
        split_ifs
        · exact h
        · exact h
        · split <;> exact h
      | post =>
        simp only [Out.step]; unfold Out.post
        split_ifs
        · exact h
        · exact tr { s with posts := s.posts - 1 } h
      | written =>
        simp only [Out.step]; unfold Out.written
        split
        · exact tr _ h
        · exact h
      | broken k =>
        simp only [Out.step]; unfold Out.broken
        split
        · exact tr _ h
        · exact h
      | up => exact h
      | down => exact h
  have hsplit : (({ limit := limit } : Out).run [.up, .forward 1 [7], .post, .broken 0]).run more = ({ limit := limit } : Out).run ([.up, .forward 1 [7], .post, .broken 0] ++ more) := by
    unfold Out.run; rw [List.foldl_append]
  have hb := hback more (({ limit := limit } : Out).run [.up, .forward 1 [7], .post, .broken 0]) (by rw [hw.2]; simp)
  rw [hsplit] at hb ⊢
  rw [C161_unacked]
  have := List.length_pos_iff.mpr hb
  omega

/-- C160: with posted calls and writes that succeed, all waiting bundles are dealt with; none is returned as failed unless a write had failed before. -/
theorem C160_drains (limit : Nat) (evs : List Ev) : ∃ more : List Ev, (∀ ev ∈ more, ev = .post ∨ ev = .written) ∧
    waiting (({ limit := limit } : Out).run (evs ++ more)) = [] ∧ accepted (({ limit := limit } : Out).run (evs ++ more)) = accepted (({ limit := limit } : Out).run evs) ∧
    ((({ limit := limit } : Out).run evs).error = false → (({ limit := limit } : Out).run (evs ++ more)).back = []) := by
  have gen : ∀ (n : Nat) (s : Out) (ok : List (Nat × Entry)), Inv s ok → 2 * s.ring.length + s.writing.isNone.toNat ≤ n →
      ∃ more : List Ev, (∀ ev ∈ more, ev = .post ∨ ev = .written) ∧ (s.run more).ring = [] ∧ (s.run more).results = s.results ∧ (s.error = false → (s.run more).error = false) := by
    intro n
    induction n with
    | zero =>
      intro s ok h hn
      refine ⟨[], by simp, ?_, rfl, fun h => h⟩
      exact List.eq_nil_of_length_eq_zero (by show s.ring.length = 0; omega)
    | succ n ih =>
      intro s ok h hn
      by_cases hr : s.ring = []
      · exact ⟨[], by simp, hr, rfl, fun h => h⟩
      · obtain ⟨e, rest, hr'⟩ := List.exists_cons_of_ne_nil hr
        have next : ∀ ev : Ev, (ev = .post ∨ ev = .written) → 2 * (s.step ev).ring.length + (s.step ev).writing.isNone.toNat ≤ n →
            (s.step ev).results = s.results → (s.error = false → (s.step ev).error = false) →
            ∃ more : List Ev, (∀ ev ∈ more, ev = .post ∨ ev = .written) ∧ (s.run more).ring = [] ∧ (s.run more).results = s.results ∧ (s.error = false → (s.run more).error = false) := by
          intro ev hev hm h1 h2
          obtain ⟨new, hi⟩ := inv_step h ev
          obtain ⟨more, g1, g2, g3, g4⟩ := ih (s.step ev) _ hi hm
          refine ⟨ev :: more, ?_, g2, g3.trans h1, fun he => g4 (h2 he)⟩
          intro x hx
          rcases List.mem_cons.mp hx with rfl | hx
          · exact hev
          · exact g1 x hx
        rw [hr'] at hn
        simp only [List.length_cons] at hn
        cases hw : s.writing with
        | some c =>
          rw [hw, show (some c).isNone.toNat = 0 from rfl] at hn
          have he : s.error = false := (h.busy (by rw [hw]; simp)).2
          refine next .written (.inr rfl) ?_ ?_ ?_
          · simp only [Out.step]; unfold Out.written; rw [hw, hr']; unfold Out.trySend
            cases rest with
            | nil => simp at hn ⊢; omega
            | cons a l => simp [he] at hn ⊢; omega
          · simp only [Out.step]; unfold Out.written; rw [hw, hr']; unfold Out.trySend
            cases rest <;> simp [he]
          · intro _
            simp only [Out.step]; unfold Out.written; rw [hw, hr']; unfold Out.trySend
            cases rest <;> simp [he]
        | none =>
          rw [hw, show (none : Option Nat).isNone.toNat = 1 from rfl] at hn
          have hp : s.posts ≠ 0 := by
            rcases h.go hr with hp | hp
            · omega
            · exact absurd hw hp
          refine next .post (.inl rfl) ?_ ?_ ?_
          · simp only [Out.step]; unfold Out.post; rw [if_neg hp]; unfold Out.trySend
            simp only [hr', hw]
            by_cases he : s.error = true
            · rw [if_pos he]; simp; omega
            · rw [if_neg he]; simp; omega
          · simp only [Out.step]; unfold Out.post; rw [if_neg hp]; unfold Out.trySend
            simp only [hr', hw]
            by_cases he : s.error = true
            · rw [if_pos he]
            · rw [if_neg he]; simp
          · intro he
            simp only [Out.step]; unfold Out.post; rw [if_neg hp]; unfold Out.trySend
            simp only [hr', hw]
            rw [if_neg (by simp [he])]; simp [he]
  obtain ⟨ok, h⟩ := reach limit evs
  obtain ⟨more, g1, g2, g3, g4⟩ := gen _ _ ok h (Nat.le_refl _)
  have hs : ({ limit := limit } : Out).run (evs ++ more) = (({ limit := limit } : Out).run evs).run more := by unfold Out.run; rw [List.foldl_append]
  refine ⟨more, g1, ?_, ?_, ?_⟩
  · rw [hs]; unfold waiting; rw [g2]; rfl
  · rw [hs]; exact accepted_same g3
  · intro he
    obtain ⟨ok', h'⟩ := reach limit (evs ++ more)
    rw [hs] at h' ⊢
    exact (h'.clean (g4 he)).1

/-! The way back. -/

/-- What holds of the way back: `all` are the packets for which a write was begun. -/
structure OInv (s : Opp) (all : List (Bytes × Bytes)) : Prop where
  sub : (all.map Prod.snd ++ s.queue).Sublist (taken s)
  eq : (∀ b ∈ taken s, 0 < b.length ∧ Fits b) → all.map Prod.snd ++ s.queue = taken s
  headers : ∀ e ∈ all, encode .bp (e.2.length % U32) = some e.1
  clean : s.error = false → ∃ gone, all = gone ++ s.writing.toList ∧ s.wire = gone.map fun e => e.1 ++ e.2
  broken : s.error = true → s.writing = none ∧ ∃ gone e k, all = gone ++ [e] ∧ s.wire = (gone.map fun e => e.1 ++ e.2) ++ [(e.1 ++ e.2).take k]
  sent : s.sent = all.length
  room : s.queue.length ≤ 5

theorem taken_same {s s' : Opp} (h : s'.results = s.results) : taken s' = taken s := by
  unfold taken; rw [h]

theorem oinv_try {s : Opp} {all : List (Bytes × Bytes)} (h : OInv s all) : ∃ all', OInv s.trySend all' := by
  unfold Opp.trySend
  by_cases h1 : s.writing.isSome = true
  · rw [if_pos h1]; exact ⟨all, h⟩
  · rw [if_neg h1]
    by_cases h2 : s.error = true
    · rw [if_pos h2]; exact ⟨all, h⟩
    · rw [if_neg h2]
      have h2' : s.error = false := by simpa using h2
      have hw : s.writing = none := by simpa using h1
      cases hq : s.queue with
      | nil => exact ⟨all, h⟩
      | cons b rest =>
        simp only
        obtain ⟨i1, i2, i3, i4, i5, i6, i7⟩ := h
        rw [hq] at i1 i2 i7
        simp only [List.length_cons] at i7
        cases he : encode .bp (b.length % U32) with
        | none =>
          refine ⟨all, ⟨?_, ?_, i3, i4, i5, i6, by show rest.length ≤ 5; omega⟩⟩
          · exact (List.Sublist.append (List.Sublist.refl _) (List.sublist_cons_self b rest)).trans i1
          · intro hall
            exfalso
            have hb := hall b (i1.subset (List.mem_append_right _ List.mem_cons_self))
            unfold Fits at hb
            rw [Nat.mod_eq_of_lt (by unfold U32; omega), C119_refused] at he
            rcases he with he | he | he
            · omega
            · omega
            · exact absurd he.2 (by decide)
        | some header =>
          obtain ⟨gone, g1, g2⟩ := i4 h2'
          rw [hw] at g1
          simp only [Option.toList_none, List.append_nil] at g1
          refine ⟨all ++ [(header, b)], ⟨?_, ?_, ?_, ?_, ?_, ?_, by show rest.length ≤ 5; omega⟩⟩
          · rw [List.map_append, List.append_assoc]; exact i1
          · intro hall
            rw [List.map_append, List.append_assoc]; exact i2 hall
          · intro e hm
            rcases List.mem_append.mp hm with hm | hm
            · exact i3 e hm
            · rw [List.mem_singleton.mp hm]; exact he
          · intro _; exact ⟨gone, by rw [g1]; rfl, g2⟩
          · intro hc; exact absurd hc h2
          · simp [i6]

theorem oinv_step {s : Opp} {all : List (Bytes × Bytes)} (h : OInv s all) (ev : OEv) : ∃ all', OInv (s.step ev) all' := by
  cases ev with
  | forward node b =>
    simp only [Opp.step]; unfold Opp.forward
    have no : OInv { s with results := s.results ++ [(b, false)] } all := by
      have ht : taken { s with results := s.results ++ [(b, false)] } = taken s := by unfold taken; simp
      obtain ⟨i1, i2, i3, i4, i5, i6, i7⟩ := h
      exact ⟨by rw [ht]; exact i1, by rw [ht]; exact i2, i3, i4, i5, i6, i7⟩
    split_ifs with h1 h2
    · exact ⟨all, no⟩
    · exact ⟨all, no⟩
    · have ht : taken { s with queue := s.queue ++ [b], posts := s.posts + 1, results := s.results ++ [(b, true)] } = taken s ++ [b] := by unfold taken; simp
      obtain ⟨i1, i2, i3, i4, i5, i6, i7⟩ := h
      refine ⟨all, ⟨?_, ?_, i3, i4, i5, i6, ?_⟩⟩
      · rw [ht]
        simp only
        rw [← List.append_assoc]
        exact i1.append (List.Sublist.refl _)
      · rw [ht]
        intro hall
        simp only
        rw [← List.append_assoc, i2 fun x hx => hall x (List.mem_append_left _ hx)]
      · simp only [List.length_append, List.length_cons, List.length_nil]; omega
  | post =>
    simp only [Opp.step]; unfold Opp.post
    split_ifs
    · exact ⟨all, h⟩
    · have h' : OInv { s with posts := s.posts - 1 } all := ⟨h.sub, h.eq, h.headers, h.clean, h.broken, h.sent, h.room⟩
      simp only
      split_ifs
      · exact oinv_try h'
      · exact ⟨all, h'⟩
  | written =>
    simp only [Opp.step]; unfold Opp.written
    cases hw : s.writing with
    | none => exact ⟨all, h⟩
    | some x =>
      obtain ⟨header, b⟩ := x
      simp only
      refine oinv_try (all := all) ?_
      have he : s.error = false := by
        by_contra hc
        have := (h.broken (by simpa using hc)).1
        rw [hw] at this; cases this
      obtain ⟨gone, g1, g2⟩ := h.clean he
      rw [hw] at g1
      refine ⟨h.sub, h.eq, h.headers, ?_, ?_, h.sent, h.room⟩
      · intro _
        refine ⟨all, by simp, ?_⟩
        simp only
        rw [g2, g1]; simp
      · intro hc; rw [he] at hc; cases hc
  | broken k =>
    simp only [Opp.step]; unfold Opp.broken
    cases hw : s.writing with
    | none => exact ⟨all, h⟩
    | some x =>
      obtain ⟨header, b⟩ := x
      simp only
      have he : s.error = false := by
        by_contra hc
        have := (h.broken (by simpa using hc)).1
        rw [hw] at this; cases this
      obtain ⟨gone, g1, g2⟩ := h.clean he
      rw [hw] at g1
      refine ⟨all, ⟨h.sub, h.eq, h.headers, ?_, ?_, h.sent, h.room⟩⟩
      · intro hc; cases hc
      · intro _
        exact ⟨rfl, gone, (header, b), k, g1, by simp only; rw [g2]⟩
  | up => exact ⟨all, ⟨h.sub, h.eq, h.headers, h.clean, h.broken, h.sent, h.room⟩⟩
  | down => exact ⟨all, ⟨h.sub, h.eq, h.headers, h.clean, h.broken, h.sent, h.room⟩⟩

theorem oreach (node : Nat) (evs : List OEv) : ∃ all, OInv (({ node := node } : Opp).run evs) all := by
  have gen : ∀ (evs : List OEv) (s : Opp) (all : List (Bytes × Bytes)), OInv s all → ∃ all, OInv (s.run evs) all := by
    intro evs
    induction evs with
    | nil => intro s all h; exact ⟨all, h⟩
    | cons ev evs ih =>
      intro s all h
      obtain ⟨all', h'⟩ := oinv_step h ev
      exact ih (s.step ev) all' h'
  refine gen evs _ [] ⟨by simp [taken], fun _ => rfl, by simp, fun _ => ⟨[], rfl, rfl⟩, fun hc => (nomatch hc), rfl, by simp⟩

/-- No write of the way back has failed. -/
theorem o_clean (evs : List OEv) (he : ∀ k, OEv.broken k ∉ evs) : ∀ s : Opp, s.error = false → (s.run evs).error = false := by
  induction evs with
  | nil => intro s h; exact h
  | cons ev evs ih =>
    intro s h
    refine ih (fun k hc => he k (List.mem_cons_of_mem _ hc)) (s.step ev) ?_
    have tr : ∀ s : Opp, s.error = false → s.trySend.error = false := by
      intro s h
      unfold Opp.trySend
      split_ifs
      · exact h
      · exact h
      · split
        · exact h
        · split <;> exact h
    cases ev with
    | forward node b => simp only [Opp.step]; unfold Opp.forward; split_ifs <;> exact h
    | post =>
      simp only [Opp.step]; unfold Opp.post
      split_ifs
      · exact h
      · simp only; split_ifs
        · exact tr _ h
        · exact h
    | written =>
      simp only [Opp.step]; unfold Opp.written
      split
      · exact h
      · exact tr _ h
    | broken k => exact absurd List.mem_cons_self (he k)
    | up => exact h
    | down => exact h

/-- C162, as far as it holds: if no write fails and all bundles have a size that a packet can have, then the bundles taken for the way back are those written, each as one packet, then the one being
written, then those that wait: none is lost, doubled or overtaken. Missing: failed writes, empty bundles. -/
theorem C162_conserved_partial (node : Nat) (evs : List OEv) (he : ∀ k, OEv.broken k ∉ evs)
    (hf : ∀ b ∈ taken (({ node := node } : Opp).run evs), 0 < b.length ∧ Fits b) :
    let s := ({ node := node } : Opp).run evs
    ∃ gone : List (Bytes × Bytes), (∀ e ∈ gone, Framed .bp e) ∧ s.wire = (gone.map fun e => e.1 ++ e.2) ∧
      taken s = gone.map Prod.snd ++ s.writing.toList.map Prod.snd ++ s.queue := by
  intro s
  obtain ⟨all, h⟩ := oreach node evs
  have h : OInv s all := h
  obtain ⟨gone, g1, g2⟩ := h.clean (o_clean evs he _ rfl)
  have heq := h.eq hf
  refine ⟨gone, ?_, g2, ?_⟩
  · intro e hm
    have hm' : e ∈ all := by rw [g1]; exact List.mem_append_left _ hm
    have hb := (hf e.2 (by show e.2 ∈ taken s; rw [← heq]; exact List.mem_append_left _ (List.mem_map_of_mem hm'))).2
    exact framed_of (e := ⟨0, e.1, e.2⟩) (h.headers e hm') hb
  · rw [← heq, g1, List.map_append]

example : let s := ({ node := 4 } : Opp).run [.up, .forward 4 [1], .forward 3 [9], .forward 4 [2], .post, .written, .forward 4 [3], .post, .post]
    s.wire = [[0xf1, 3, 1]] ∧ s.writing = some ([0xf1, 3], [2]) ∧ s.queue = [[3]] ∧ taken s = [[1], [2], [3]] := by decide +kernel

/-- C162, as far as it holds: on one connection, whatever fails, the receiver delivers only bundles that were taken, in their order and none twice. -/
theorem C162_in_order_partial (node : Nat) (evs : List OEv) (hf : ∀ b ∈ taken (({ node := node } : Opp).run evs), Fits b) (auto : Bool) (ops : List Op) (hc : connected ops)
    (hr : received ops <+: (({ node := node } : Opp).run evs).wire.flatten) :
    (((Rx.connected .bp false auto).run ops).out.map Packet.buffer).Sublist (taken (({ node := node } : Opp).run evs)) := by
  obtain ⟨all, h⟩ := oreach node evs
  generalize ({ node := node } : Opp).run evs = s at h hf hr ⊢
  have hfr : ∀ e ∈ all, Framed .bp e := fun e hm =>
    framed_of (e := ⟨0, e.1, e.2⟩) (h.headers e hm) (hf e.2 (h.sub.subset (List.mem_append_left _ (List.mem_map_of_mem hm))))
  have hpre : s.wire.flatten <+: stream all := by
    have hst : ∀ l : List (Bytes × Bytes), stream l = (l.map fun e => e.1 ++ e.2).flatten := fun l => rfl
    by_cases he : s.error = true
    · obtain ⟨-, gone, e, k, g1, g2⟩ := h.broken he
      rw [g1, g2, hst, List.map_append, List.flatten_append, List.flatten_append]
      refine List.prefix_append_right_inj _ |>.mpr ?_
      simpa using List.take_prefix k (e.1 ++ e.2)
    · obtain ⟨gone, g1, g2⟩ := h.clean (by simpa using he)
      rw [g1, g2, hst, List.map_append, List.flatten_append]
      exact List.prefix_append _ _
  obtain ⟨k, -, hout⟩ := C120_in_order_partial .bp false auto (by decide) all hfr ops hc (hr.trans hpre)
  rw [hout]
  refine List.Sublist.trans ?_ ((List.sublist_append_left _ _).trans h.sub)
  rw [List.map_map]
  exact List.Sublist.map _ (List.take_sublist k all)

/-- C162: a bundle is taken exactly if it is for the node whose connection this is and fewer than five wait. -/
theorem C162_takes (s : Opp) (node : Nat) (b : Bytes) :
    (s.forward node b).results = s.results ++ [(b, decide (node = s.node ∧ s.queue.length < 5))] ∧
    (s.forward node b).queue = s.queue ++ (if node = s.node ∧ s.queue.length < 5 then [b] else []) := by
  unfold Opp.forward
  by_cases h1 : node = s.node
  · rw [if_neg (by simpa using h1)]
    by_cases h2 : 5 ≤ s.queue.length
    · rw [if_pos h2]
      have : ¬(node = s.node ∧ s.queue.length < 5) := fun h => by omega
      rw [decide_eq_false this, if_neg this]
      exact ⟨rfl, by simp⟩
    · rw [if_neg h2]
      have : node = s.node ∧ s.queue.length < 5 := ⟨h1, by omega⟩
      rw [decide_eq_true this, if_pos this]
      exact ⟨rfl, rfl⟩
  · rw [if_pos h1]
    have : ¬(node = s.node ∧ s.queue.length < 5) := fun h => h1 h.1
    rw [decide_eq_false this, if_neg this]
    exact ⟨rfl, by simp⟩

/-- C162 does not hold: a bundle that was taken is lost without a report if the write fails; so is an empty one at once. -/
theorem C162_lost_violated : (let s := ({ node := 4 } : Opp).run [.up, .forward 4 [1], .post, .broken 0]; taken s = [[1]] ∧ s.queue = [] ∧ s.writing = none ∧ s.wire = [[]]) ∧
    (let s := ({ node := 4 } : Opp).run [.up, .forward 4 [], .post]; taken s = [[]] ∧ s.queue = [] ∧ s.writing = none ∧ s.wire = [] ∧ s.failed = 0) := by decide +kernel

/-- C162 does not hold: once a write has failed, nothing is ever written again, whatever happens, new connections included. -/
theorem C162_forever_violated (node : Nat) (evs : List OEv) (he : (({ node := node } : Opp).run evs).error = true) (more : List OEv) :
    ((({ node := node } : Opp).run evs).run more).wire = (({ node := node } : Opp).run evs).wire := by
  obtain ⟨all, h⟩ := oreach node evs
  have hw := (h.broken he).1
  have gen : ∀ (more : List OEv) (s : Opp), s.error = true → s.writing = none → (s.run more).wire = s.wire := by
    intro more
    induction more with
    | nil => intro s _ _; rfl
    | cons ev more ih =>
      intro s h1 h2
      have tr : ∀ s : Opp, s.error = true → s.writing = none → s.trySend = s := by
        intro s h1 h2
        unfold Opp.trySend
        rw [h2, if_neg (by simp), if_pos h1]
      have : (s.step ev).error = true ∧ (s.step ev).writing = none ∧ (s.step ev).wire = s.wire := by
        cases ev with
        | forward node b => simp only [Opp.step]; unfold Opp.forward; split_ifs <;> exact ⟨h1, h2, rfl⟩
        | post =>
          simp only [Opp.step]; unfold Opp.post
          split_ifs
          · exact ⟨h1, h2, rfl⟩
          · simp only; split_ifs
            · rw [tr { s with posts := s.posts - 1 } h1 h2]; exact ⟨h1, h2, rfl⟩
            · exact ⟨h1, h2, rfl⟩
        | written => simp only [Opp.step]; unfold Opp.written; rw [h2]; exact ⟨h1, h2, rfl⟩
        | broken k => simp only [Opp.step]; unfold Opp.broken; rw [h2]; exact ⟨h1, h2, rfl⟩
        | up => exact ⟨h1, h2, rfl⟩
        | down => exact ⟨h1, h2, rfl⟩
      exact (ih (s.step ev) this.1 this.2.1).trans this.2.2
  exact gen more _ he hw

example : let s := ({ node := 4 } : Opp).run [.up, .forward 4 [1], .post, .broken 1, .down, .up, .forward 4 [2], .post]
    s.error = true ∧ taken s = [[1], [2]] ∧ s.queue = [[2]] ∧ s.wire = [[0xf1]] := by decide +kernel

/-- C162 does not hold: a bundle taken while there is no connection is not written when there is one, nor ever, until another bundle comes. -/
theorem C162_asleep_violated : ∃ evs : List OEv, taken (({ node := 4 } : Opp).run evs) = [[1]] ∧ (({ node := 4 } : Opp).run evs).ready = true ∧ (({ node := 4 } : Opp).run evs).error = false ∧
    ∀ more : List OEv, (∀ node b, OEv.forward node b ∉ more) → ((({ node := 4 } : Opp).run evs).run more).wire = [] := by
  refine ⟨[.forward 4 [1], .post, .up], by decide +kernel, by decide +kernel, by decide +kernel, ?_⟩
  have gen : ∀ (more : List OEv) (s : Opp), s.posts = 0 → s.writing = none → (∀ node b, OEv.forward node b ∉ more) → (s.run more).wire = s.wire := by
    intro more
    induction more with
    | nil => intro s _ _ _; rfl
    | cons ev more ih =>
      intro s h1 h2 h3
      have : (s.step ev).posts = 0 ∧ (s.step ev).writing = none ∧ (s.step ev).wire = s.wire := by
        cases ev with
        | forward node b => exact absurd List.mem_cons_self (h3 node b)
        | post => simp only [Opp.step]; unfold Opp.post; rw [if_pos h1]; exact ⟨h1, h2, rfl⟩
        | written => simp only [Opp.step]; unfold Opp.written; rw [h2]; exact ⟨h1, h2, rfl⟩
        | broken k => simp only [Opp.step]; unfold Opp.broken; rw [h2]; exact ⟨h1, h2, rfl⟩
        | up => exact ⟨h1, h2, rfl⟩
        | down => exact ⟨h1, h2, rfl⟩
      exact (ih (s.step ev) this.1 this.2.1 fun node b hc => h3 node b (List.mem_cons_of_mem _ hc)).trans this.2.2
  intro more hm
  exact gen more _ (by decide +kernel) (by decide +kernel) hm

end Hdtn.EncapDuct
