import Verif.LtpSender.Serials

/-!
What is sent again, at once or after the delay.
-/

namespace Hdtn.LtpSender
open Hdtn.FragmentSet Hdtn.LtpReport
open Hdtn.LtpReceiver (Seg Reason)

/-! ### Groups of segments -/

theorem segOf_checkpoint {cfg : Cfg} {f : Resend} (h : f.Ok cfg) :
    (segOf cfg f).IsCheckpoint ↔ f.flags ≠ 0 := by
  simp only [Seg.IsCheckpoint, segOf]
  constructor
  · intro h; omega
  · intro hz
    have := h.marked hz
    rw [cpFlags] at this
    split at this <;> (try split at this) <;> omega

theorem Batch.group {cfg : Cfg} {serial csn : Nat} {q : List Resend} (h : Batch cfg serial csn q) :
    Group serial (q.map (segOf cfg)) := by
  refine ⟨?_, ?_⟩
  · rw [List.pairwise_map]; exact h.ordered
  · obtain ⟨ini, f, rfl, h2, h3, h4⟩ := h.last
    refine ⟨ini.map (segOf cfg), segOf cfg f, csn, by simp, ?_, ?_, ?_⟩
    · exact (segOf_checkpoint (h.ok f (by simp))).2 h2
    · simp only [segOf, h2, ne_eq, not_false_eq_true, if_true, h3, (h.shape f (by simp)).1]
    · intro t ht
      obtain ⟨g, hg, rfl⟩ := List.mem_map.1 ht
      rw [segOf_checkpoint (h.ok g (by simp [hg]))]
      simp [h4 g hg]

theorem segOf_has (cfg : Cfg) (q : List Resend) (x : Nat) :
    (∃ s ∈ q.map (segOf cfg), s.Has x) ↔ ∃ f ∈ q, f.offset ≤ x ∧ x < f.offset + f.length := by
  simp [Seg.Has, segOf]

theorem ordered_disjoint {q : List Resend} (h : q.Pairwise fun f g => f.offset + f.length ≤ g.offset)
    (cfg : Cfg) : (q.map (segOf cfg)).Pairwise fun s t => ∀ x, ¬ (s.Has x ∧ t.Has x) := by
  rw [List.pairwise_map]
  apply h.imp
  intro f g hfg x
  simp only [Seg.Has, segOf]
  omega

/-- The queue entries for a list of reports: one group per report, every missing byte once. -/
theorem Batches.groups {cfg : Cfg} {csn : Nat} {l : List (Nat × List Frag)} {q : List Resend}
    (h : Batches cfg csn l q)
    (hd : l.Pairwise fun e f => ∀ x, ¬ (Covers e.2 x ∧ Covers f.2 x)) :
    (∃ groups : List (Nat × List Seg), q.map (segOf cfg) = (groups.map Prod.snd).flatten ∧
      groups.map Prod.fst = l.map Prod.fst ∧ ∀ p ∈ groups, Group p.1 p.2) ∧
    (∀ x, (∃ s ∈ q.map (segOf cfg), s.Has x) ↔ ∃ e ∈ l, Covers e.2 x) ∧
    (q.map (segOf cfg)).Pairwise fun s t => ∀ x, ¬ (s.Has x ∧ t.Has x) := by
  induction h with
  | nil => exact ⟨⟨[], by simp⟩, by simp, by simp⟩
  | cons h1 h2 h3 ih =>
    rename_i csn serial gaps rest q q'
    rw [List.pairwise_cons] at hd
    obtain ⟨⟨groups, g1, g2, g3⟩, i2, i3⟩ := ih hd.2
    refine ⟨⟨(serial, q.map (segOf cfg)) :: groups, ?_, ?_, ?_⟩, fun x => ?_, ?_⟩
    · simp only [List.map_append, List.map_cons, List.flatten_cons, g1]
    · simp only [List.map_cons, g2]
    · intro p hp
      rcases List.mem_cons.1 hp with rfl | hp
      · exact h1.group
      · exact g3 p hp
    · have e1 := h2 x
      have e2 := i2 x
      rw [← segOf_has cfg] at e1
      simp only [List.map_append, List.mem_append, or_and_right, exists_or, e1, e2, List.mem_cons,
        exists_eq_or_imp, exists_eq_left]
    · rw [List.map_append, List.pairwise_append]
      refine ⟨ordered_disjoint h1.ordered cfg, i3, fun s hs t ht x hx => ?_⟩
      have c1 : Covers gaps x := by
        rw [← h2 x, ← segOf_has cfg]; exact ⟨s, hs, hx.1⟩
      obtain ⟨e, he, c2⟩ := (i2 x).1 ⟨t, ht, hx.2⟩
      exact hd.1 e he x ⟨c1, c2⟩

/-! ### Pending reports -/

/-- Byte `x` is in the scope of a pending report. -/
def Due (st : State) (x : Nat) : Prop := ∃ p ∈ st.pending, p.1.Has x

structure Pend (st : State) : Prop where
  sorted : st.pending.Pairwise fun p q => ltUnique p.1 q.1 = true
  largest : ∀ p ∈ st.pending, p.1.e ≤ st.largestEnd
  bound : st.largestEnd + 1 < 2 ^ 64

theorem ltUnique_iff (x y : Frag) : ltUnique x y = true ↔ x.b < y.b ∨ (x.b = y.b ∧ x.e < y.e) := by
  unfold ltUnique
  split
  · simp only [decide_eq_true_eq]; omega
  · simp only [decide_eq_true_eq]; omega

theorem addPending_has (p : Frag × Nat) (l : List (Frag × Nat)) (x : Nat) :
    (∃ q ∈ addPending p l, q.1.Has x) ↔ p.1.Has x ∨ ∃ q ∈ l, q.1.Has x := by
  induction l with
  | nil => simp [addPending]
  | cons r rs ih =>
    rw [addPending]
    split
    · simp
    · rename_i h1
      split
      · simp only [List.mem_cons, exists_eq_or_imp, ih]
        constructor
        · rintro (h | h | h)
          · exact .inr (.inl h)
          · exact .inl h
          · exact .inr (.inr h)
        · rintro (h | h | h)
          · exact .inr (.inl h)
          · exact .inl h
          · exact .inr (.inr h)
      · rename_i h2
        have he : p.1 = r.1 := by
          rw [ltUnique_iff] at h1 h2
          rcases hp : p.1 with ⟨a, b⟩
          rcases hr : r.1 with ⟨c, d⟩
          rw [hp, hr] at h1 h2
          simp only at h1 h2
          have : a = c := by omega
          have : b = d := by omega
          subst_vars
          rfl
        simp only [List.mem_cons, exists_eq_or_imp, he]
        constructor
        · exact .inr
        · rintro (h | h)
          · exact .inl h
          · exact h

theorem addPending_sorted (p : Frag × Nat) (l : List (Frag × Nat))
    (h : l.Pairwise fun p q => ltUnique p.1 q.1 = true) :
    (addPending p l).Pairwise fun p q => ltUnique p.1 q.1 = true := by
  induction l with
  | nil => simp [addPending]
  | cons r rs ih =>
    rw [List.pairwise_cons] at h
    rw [addPending]
    split
    · rename_i h1
      rw [List.pairwise_cons]
      refine ⟨fun q hq => ?_, List.pairwise_cons.2 h⟩
      rcases List.mem_cons.1 hq with rfl | hq
      · exact h1
      · have h2 := h.1 q hq
        rw [ltUnique_iff] at h1 h2 ⊢
        omega
    · split
      · rename_i h1 h2
        rw [List.pairwise_cons]
        refine ⟨fun q hq => ?_, ih h.2⟩
        rcases mem_addPending hq with rfl | hq
        · exact h2
        · exact h.1 q hq
      · exact List.pairwise_cons.2 h

theorem schedule_due (cfg : Cfg) (hd : cfg.deferral = true) (st st' : State) (hi : Inv cfg st)
    (hp : Pend st) (serial : Nat) (b : Frag) (hb : b.Valid)
    (h : scheduleResend cfg st serial b = some st') :
    Pend st' ∧ (∀ x, Due st' x → Due st x ∨ b.Has x) ∧
      (∀ x, ¬ Covers st.acked x → Due st x ∨ b.Has x → Due st' x) ∧
      st'.resend = st.resend ∧ (∀ p ∈ st'.pending, p.2 = serial ∨ p ∈ st.pending) := by
  obtain ⟨-, g2⟩ := boundsMinus_spec b hb st.acked hi.acked
  rw [scheduleResend] at h
  simp only [hd, Bool.not_true, Bool.false_eq_true, if_false] at h
  cases hpe : st.pending with
  | nil =>
    rw [hpe] at h
    simp only at h
    by_cases hg : boundsMinusFragments b st.acked = []
    · rw [if_pos hg, Option.some.injEq] at h
      subst h
      refine ⟨hp, fun x => .inl, fun x hx hh => ?_, rfl, fun p hp => .inr (by rw [← hpe]; exact hp)⟩
      rcases hh with hh | hh
      · exact hh
      · have := (g2 x).2 ⟨hh, hx⟩
        rw [hg] at this
        exact absurd this (covers_nil x)
    · rw [if_neg hg, Option.some.injEq] at h
      subst h
      refine ⟨⟨by simp, by simp, hb.2⟩, fun x hx => ?_, fun x _ hh => ?_, rfl, fun p hp => ?_⟩
      · right; simpa [Due] using hx
      · rcases hh with ⟨p, hp', -⟩ | hh
        · rw [hpe] at hp'; simp at hp'
        · exact ⟨(b, serial), by simp, hh⟩
      · simp only [List.mem_singleton] at hp; left; rw [hp]
  | cons p0 ps0 =>
    rw [hpe] at h
    simp only at h
    have hs := hp.sorted
    have hl := hp.largest
    have hhas := addPending_has (b, serial) (p0 :: ps0)
    have hsort := addPending_sorted (b, serial) (p0 :: ps0) (by rw [← hpe]; exact hs)
    have hmem : ∀ q ∈ addPending (b, serial) (p0 :: ps0), q = (b, serial) ∨ q ∈ p0 :: ps0 :=
      fun q hq => mem_addPending hq
    have hlarge : ∀ q ∈ addPending (b, serial) (p0 :: ps0), q.1.e ≤ max st.largestEnd b.e := by
      intro q hq
      rcases hmem q hq with rfl | hq
      · simp only; omega
      · have := hl q (by rw [hpe]; exact hq)
        omega
    have hdue : ∀ x, (Due st x ∨ b.Has x) ↔ ∃ q ∈ addPending (b, serial) (p0 :: ps0), q.1.Has x := by
      intro x
      rw [hhas x, Due, hpe, or_comm]
    generalize addPending (b, serial) (p0 :: ps0) = l at *
    cases l with
    | nil => cases h
    | cons p1 ps1 =>
      simp only at h
      rw [List.pairwise_cons] at hsort
      have hbound : max st.largestEnd b.e + 1 < 2 ^ 64 := by
        have := hp.bound
        have := hb.2
        omega
      by_cases hcov : containsEntirely st.acked ⟨p1.1.b, max st.largestEnd b.e⟩ = true
      · rw [if_pos hcov, Option.some.injEq] at h
        subst h
        refine ⟨⟨by simp, by simp, hbound⟩, fun x hx => ?_, fun x hx hh => ?_, rfl, by simp⟩
        · obtain ⟨q, hq, -⟩ := hx; simp at hq
        · exfalso
          apply hx
          obtain ⟨q, hq, hqx⟩ := (hdue x).1 hh
          have hb1 : p1.1.b ≤ q.1.b := by
            rcases List.mem_cons.1 hq with rfl | hq
            · exact Nat.le_refl _
            · have := hsort.1 q hq
              rw [ltUnique_iff] at this
              omega
          have hq2 := hlarge q hq
          simp only [Frag.Has] at hqx
          have hbd := hp.bound
          have hbe := hb.2
          rw [containsEntirely_iff _ _ hi.acked (by simp only [Frag.Valid]; omega)] at hcov
          exact hcov x (by simp only [Frag.Has]; omega)
      · rw [if_neg hcov, Option.some.injEq] at h
        subst h
        refine ⟨⟨List.pairwise_cons.2 hsort, hlarge, hbound⟩, fun x hx => (hdue x).2 hx,
          fun x _ hh => (hdue x).1 hh, rfl, fun p hp => ?_⟩
        rcases hmem p hp with rfl | hq
        · exact .inl rfl
        · exact .inr hq

/-! ### Histories -/

theorem waiting_snoc (evs : List Event) (e : Event) (x : Nat) :
    Waiting (evs ++ [e]) x ↔ (Waiting evs x ∧ e ≠ .delayExpired) ∨
      ∃ n c r, e = .report n c r ∧ News evs n r ∧ r.InScope x := by
  constructor
  · rintro ⟨pre, n, c, r, post, h, h1, h2, h3⟩
    rcases List.eq_nil_or_concat post with rfl | ⟨post', e', rfl⟩
    · obtain ⟨g1, g2⟩ := List.append_inj' h rfl
      simp only [List.cons.injEq, and_true] at g2
      subst g1
      exact .inr ⟨n, c, r, g2, h1, h2⟩
    · rw [List.concat_eq_append, ← List.cons_append, ← List.append_assoc] at h
      obtain ⟨g1, g2⟩ := List.append_inj' h rfl
      simp only [List.cons.injEq, and_true] at g2
      refine .inl ⟨⟨pre, n, c, r, post', g1, h1, h2, fun hm => h3 (by simp [hm])⟩, fun he => h3 ?_⟩
      rw [List.concat_eq_append, ← g2, he]
      simp
  · rintro (⟨⟨pre, n, c, r, post, rfl, h1, h2, h3⟩, h4⟩ | ⟨n, c, r, rfl, h1, h2⟩)
    · refine ⟨pre, n, c, r, post ++ [e], by simp, h1, h2, fun hm => ?_⟩
      rcases List.mem_append.1 hm with hm | hm
      · exact h3 hm
      · exact h4 (List.mem_singleton.1 hm).symm
    · exact ⟨evs, n, c, r, [], rfl, h1, h2, by simp⟩

/-- What is pending in a history. -/
structure Owes (evs : List Event) (st : State) : Prop where
  pend : Pend st
  sound : ∀ x, Due st x → Waiting evs x
  complete : ∀ x, Waiting evs x → ¬ Claimed evs x → Due st x
  serials : ∀ p ∈ st.pending, ∃ c r, Event.report p.2 c r ∈ evs

theorem Owes.keep {evs : List Event} {st st' : State} {e : Event} (h : Owes evs st)
    (hp : st'.pending = st.pending) (hl : st'.largestEnd = st.largestEnd)
    (he : ∀ n c r, e ≠ .report n c r) (he' : e ≠ .delayExpired) : Owes (evs ++ [e]) st' := by
  have hw : ∀ x, Waiting (evs ++ [e]) x ↔ Waiting evs x := by
    intro x
    rw [waiting_snoc]
    constructor
    · rintro (⟨h, -⟩ | ⟨n, c, r, h, -⟩)
      · exact h
      · exact absurd h (he n c r)
    · exact fun h => .inl ⟨h, he'⟩
  refine ⟨⟨by rw [hp]; exact h.pend.sorted, by rw [hp, hl]; exact h.pend.largest,
    by rw [hl]; exact h.pend.bound⟩, fun x hx => ?_, fun x hx hc => ?_, fun p hp' => ?_⟩
  · rw [hw]; apply h.sound; rwa [Due, hp] at hx
  · rw [hw] at hx
    rw [claimed_not_report _ _ he] at hc
    rw [Due, hp]
    exact h.complete x hx hc
  · rw [hp] at hp'
    obtain ⟨c, r, hm⟩ := h.serials p hp'
    exact ⟨c, r, by simp [hm]⟩

theorem inScope_has {cfg : Cfg} {r : Report} (hr : FairReport cfg r) (x : Nat) :
    (⟨r.lower, r.upper - 1⟩ : Frag).Has x ↔ r.InScope x := by
  have := hr.1.1
  simp only [Frag.Has, Report.InScope]
  omega

theorem News.iff {cfg : Cfg} {evs : List Event} {st : State} {effs : List Eff}
    (hst : Story cfg evs st effs) {n : Nat} {r : Report} (hrange : r.InRange) :
    News evs n r ↔ n ∉ st.seen ∧ (addReport st.acked r).2 = true := by
  obtain ⟨-, -, a3⟩ := C12_report_added st.acked hst.inv.acked r hrange
  rw [a3, hst.seen n, News]
  constructor
  · rintro ⟨h1, y, h2, h3⟩
    exact ⟨fun ⟨c', r', hm⟩ => h1 c' r' hm, y, h2, fun hc => h3 ((hst.claimed y).1 hc)⟩
  · rintro ⟨h1, y, h2, h3⟩
    exact ⟨fun c' r' hm => h1 ⟨c', r', hm⟩, y, h2, fun hc => h3 ((hst.claimed y).2 hc)⟩

/-- The part of `reportSegment` that matters for retransmission. -/
theorem report_schedules (cfg : Cfg) (hc : cfg.Sane) (st st' : State) (hi : Inv cfg st) (effs : List Eff)
    (n c : Nat) (r : Report) (hr : FairReport cfg r)
    (h : reportSegment cfg st n c r = some (st', effs)) :
    (¬ (n ∉ st.seen ∧ (addReport st.acked r).2 = true) → st'.pending = st.pending ∧
      st'.largestEnd = st.largestEnd ∧ st'.resend = st.resend) ∧
    (n ∉ st.seen → (addReport st.acked r).2 = true →
      ∃ st1, Inv cfg st1 ∧ st1.acked = (addReport st.acked r).1 ∧ st1.pending = st.pending ∧
        st1.largestEnd = st.largestEnd ∧ st1.resend = st.resend ∧
        scheduleResend cfg st1 n ⟨r.lower, r.upper - 1⟩ = some st') := by
  obtain ⟨b1, b2, b3, b4⟩ := fair_bounds hc hr
  have hredlt : cfg.red < 2 ^ 64 := by have := hc.red; have := hc.block; omega
  rw [reportSegment] at h
  simp only at h
  by_cases hs : n ∈ st.seen
  · simp only [hs, if_true, Option.some.injEq, Prod.mk.injEq, List.nil_append] at h
    obtain ⟨rfl, rfl⟩ := h
    exact ⟨fun _ => ⟨rfl, rfl, rfl⟩, fun hn => absurd hs hn⟩
  · obtain ⟨a1, a2, a3⟩ := C12_report_added st.acked hi.acked r b4
    simp only [hs, if_false] at h
    cases hnew : (addReport st.acked r).2 with
    | false =>
      simp only [hnew, Bool.false_eq_true, if_false, Option.some.injEq, Prod.mk.injEq,
        List.nil_append] at h
      obtain ⟨rfl, rfl⟩ := h
      exact ⟨fun _ => ⟨rfl, rfl, rfl⟩, fun _ hn => by cases hn⟩
    | true =>
      refine ⟨fun hn => absurd ⟨hs, rfl⟩ hn, fun _ _ => ?_⟩
      have ain : ∀ x, Covers (addReport st.acked r).1 x → x < cfg.red := by
        intro x hx
        rcases (a2 x).1 hx with h | ⟨c, hc', hx'⟩
        · exact hi.inside x h
        · have := hr.1.2.1 c hc'
          have := hr.2
          omega
      have aall : (st.allRed || redAcked cfg (addReport st.acked r).1) = true →
          ∀ x < cfg.red, Covers (addReport st.acked r).1 x := by
        intro h
        rw [Bool.or_eq_true] at h
        rcases h with h | h
        · exact fun x hx => (a2 x).2 (.inl (hi.allRed h x hx))
        · exact redAcked_covers cfg _ h hredlt
      have htim : ∀ t ∈ (if c ≠ 0 then st.timers.filter (fun t => t.1 ≠ c)
          else st.timers), t.2.Ok cfg ∧ t.2.flags ≠ 0 ∧ t.2.checkpoint = t.1 := by
        intro t ht
        split at ht
        · exact hi.timers t (List.mem_filter.1 ht).1
        · exact hi.timers t ht
      have hinv1 : Inv cfg { st with
          acks := st.acks ++ [n]
          seen := n :: st.seen
          timers := if c ≠ 0 then st.timers.filter (fun t => t.1 ≠ c) else st.timers
          acked := (addReport st.acked r).1
          allRed := st.allRed || redAcked cfg (addReport st.acked r).1 } :=
        ⟨hi.index, hi.counter, hi.csn, a1, ain, aall, hi.resend, htim, hi.pending⟩
      simp only [hnew, if_true, newClaims, b1] at h
      by_cases hd : st.index = cfg.block.length ∧
          (st.allRed || redAcked cfg (addReport st.acked r).1) = true
      · rw [if_pos hd, notifyDelete_spec] at h
        simp only at h
        split at h
        · cases h
        · rename_i st1 effs1 h1
          split at h1
          · cases h1
          · rename_i st2 h2
            simp only [Option.some.injEq, Prod.mk.injEq] at h1 h
            obtain ⟨rfl, rfl⟩ := h1
            obtain ⟨rfl, rfl⟩ := h
            exact ⟨_, hinv1.notified true, rfl, rfl, rfl, rfl, h2⟩
      · rw [if_neg hd] at h
        simp only at h
        split at h
        · cases h
        · rename_i st1 effs1 h1
          split at h1
          · cases h1
          · rename_i st2 h2
            simp only [Option.some.injEq, Prod.mk.injEq] at h1 h
            obtain ⟨rfl, rfl⟩ := h1
            obtain ⟨rfl, rfl⟩ := h
            exact ⟨_, hinv1, rfl, rfl, rfl, rfl, h2⟩

theorem owes_step {cfg : Cfg} (hc : cfg.Sane) (hd : cfg.deferral = true) {evs : List Event}
    {st st' : State} {effs effs' : List Eff} {e : Event} (hst : Story cfg evs st effs)
    (h : Owes evs st) (he : e.Fair cfg) (hstep : step cfg st e = some (st', effs')) :
    Owes (evs ++ [e]) st' := by
  have hi := hst.inv
  cases e with
  | first =>
    rcases firstPass_spec cfg hc st hi with ⟨-, k⟩ | ⟨hlt, st1, s, st2, tail, h1, h2, k⟩ <;>
      rw [step, k] at hstep <;> simp only [Option.some.injEq, Prod.mk.injEq] at hstep <;>
      obtain ⟨rfl, rfl⟩ := hstep
    · exact h.keep rfl rfl (by simp) (by simp)
    · have hfr : st2.pending = st1.pending ∧ st2.largestEnd = st1.largestEnd := by
        rcases h2 with ⟨-, rfl, -⟩ | ⟨-, -, rfl, -⟩ | ⟨-, -, rfl, -⟩ <;> simp
      have hf1 : st1.pending = st.pending ∧ st1.largestEnd = st.largestEnd := by
        rcases h1.frame with ⟨-, hf⟩ | ⟨-, -, -, -, hf⟩ <;> rw [hf] <;> simp
      exact h.keep (hfr.1.trans hf1.1) (hfr.2.trans hf1.2) (by simp) (by simp)
  | next =>
    rcases nextCritical_spec cfg hc st hi with ⟨a, rest, -, k⟩ | ⟨-, -, k⟩ | ⟨-, -, -, k⟩ |
      ⟨f, rest, -, -, hr, k⟩ <;> rw [step, k] at hstep <;>
      simp only [Option.some.injEq, Prod.mk.injEq] at hstep <;> obtain ⟨rfl, rfl⟩ := hstep <;>
      exact h.keep rfl rfl (by simp) (by simp)
  | checkpointExpired csn =>
    simp only [step, Option.some.injEq] at hstep
    rcases checkpointExpired_spec cfg hc st hi csn with ⟨-, k⟩ | ⟨f, -, -, ⟨-, -, k⟩ | ⟨-, k⟩ | ⟨-, k⟩⟩ <;>
      rw [k] at hstep <;> simp only [Prod.mk.injEq] at hstep <;> obtain ⟨rfl, rfl⟩ := hstep <;>
      exact h.keep rfl rfl (by simp) (by simp)
  | delayExpired =>
    have hnw : ∀ x, ¬ Waiting (evs ++ [.delayExpired]) x := by
      intro x hx
      rcases (waiting_snoc _ _ _).1 hx with ⟨-, h⟩ | ⟨n, c, r, h, -⟩
      · exact h rfl
      · cases h
    rcases delayExpired_spec cfg hc st hi with ⟨hp, k⟩ | ⟨-, q, n, k, -⟩ <;> rw [step, k] at hstep <;>
      simp only [Option.some.injEq, Prod.mk.injEq] at hstep <;> obtain ⟨rfl, rfl⟩ := hstep
    · refine ⟨h.pend, fun x hx => ?_, fun x hx _ => absurd hx (hnw x), fun p hp' => ?_⟩
      · obtain ⟨p, hp', -⟩ := hx; rw [hp] at hp'; simp at hp'
      · rw [hp] at hp'; simp at hp'
    · refine ⟨⟨by simp, by simp, h.pend.bound⟩, fun x hx => ?_, fun x hx _ => absurd hx (hnw x), by simp⟩
      obtain ⟨p, hp', -⟩ := hx; simp at hp'
  | report n c r =>
    have hr : FairReport cfg r := he
    obtain ⟨-, b2, -, hrange⟩ := fair_bounds hc hr
    have hnews := News.iff hst (n := n) hrange
    obtain ⟨k1, k2⟩ := report_schedules cfg hc st st' hi effs' n c r hr hstep
    have hmem : ∀ p ∈ st.pending, ∃ c' r', Event.report p.2 c' r' ∈ evs ++ [.report n c r] := by
      intro p hp
      obtain ⟨c', r', hm⟩ := h.serials p hp
      exact ⟨c', r', by simp [hm]⟩
    have hmono : ∀ x, Claimed evs x → Claimed (evs ++ [.report n c r]) x :=
      fun x hx => (claimed_snoc _ _ _).2 (.inl hx)
    by_cases hn : News evs n r
    · obtain ⟨h1, h2⟩ := hnews.1 hn
      obtain ⟨st1, i1, i2, i3, i4, -, i6⟩ := k2 h1 h2
      have hp1 : Pend st1 := ⟨by rw [i3]; exact h.pend.sorted, by rw [i3, i4]; exact h.pend.largest,
        by rw [i4]; exact h.pend.bound⟩
      obtain ⟨s1, s2, s3, -, s5⟩ := schedule_due cfg hd st1 st' i1 hp1 n _ b2 i6
      obtain ⟨-, a2, -⟩ := C12_report_added st.acked hi.acked r hrange
      refine ⟨s1, fun x hx => ?_, fun x hx hcl => ?_, fun p hp => ?_⟩
      · rw [waiting_snoc]
        rcases s2 x hx with hx | hx
        · exact .inl ⟨h.sound x (by rw [Due, ← i3]; exact hx), by simp⟩
        · exact .inr ⟨n, c, r, rfl, hn, (inScope_has hr x).1 hx⟩
      · apply s3 x
        · rw [i2, a2 x]
          rintro (hx' | hx')
          · exact hcl (hmono x ((hst.claimed x).1 hx'))
          · exact hcl ((claimed_snoc _ _ _).2 (.inr ⟨n, c, r, rfl, hn.1, hx'⟩))
        · rcases (waiting_snoc _ _ _).1 hx with ⟨hx, -⟩ | ⟨n', c', r', he', -, hx⟩
          · left
            rw [Due, i3]
            exact h.complete x hx fun hc' => hcl (hmono x hc')
          · injection he' with e1 e2 e3
            subst e1 e2 e3
            exact .inr ((inScope_has hr x).2 hx)
      · rcases s5 p hp with hp | hp
        · rw [hp]; exact ⟨c, r, by simp⟩
        · rw [i3] at hp; exact hmem p hp
    · obtain ⟨g1, g2, -⟩ := k1 (fun hh => hn (hnews.2 hh))
      have hw : ∀ x, Waiting (evs ++ [.report n c r]) x ↔ Waiting evs x := by
        intro x
        rw [waiting_snoc]
        constructor
        · rintro (⟨h, -⟩ | ⟨n', c', r', he', hh, -⟩)
          · exact h
          · injection he' with e1 e2 e3
            subst e1 e2 e3
            exact absurd hh hn
        · exact fun h => .inl ⟨h, by simp⟩
      refine ⟨⟨by rw [g1]; exact h.pend.sorted, by rw [g1, g2]; exact h.pend.largest,
        by rw [g2]; exact h.pend.bound⟩, fun x hx => ?_, fun x hx hcl => ?_, by rw [g1]; exact hmem⟩
      · rw [hw]; apply h.sound; rwa [Due, g1] at hx
      · rw [hw] at hx
        rw [Due, g1]
        exact h.complete x hx fun hc' => hcl (hmono x hc')

theorem owes (cfg : Cfg) (hc : cfg.Sane) (hd : cfg.deferral = true) (serial : Nat) (hs : serial < 2 ^ 64)
    (evs : List Event) (h : Fair cfg evs) :
    ∃ st effs, run cfg (init cfg serial) evs = some (st, effs) ∧ Story cfg evs st effs ∧ Owes evs st := by
  induction evs using List.reverseRecOn with
  | nil =>
    refine ⟨_, _, rfl, init_story cfg serial hs, ⟨by simp [init], by simp [init], by simp [init]⟩, ?_, ?_,
      by simp [init]⟩
    · rintro x ⟨p, hp, -⟩; simp [init] at hp
    · rintro x ⟨pre, n, c, r, post, h, -⟩; simp at h
  | append_singleton evs e ih =>
    obtain ⟨h1, h2⟩ := h.last
    obtain ⟨st, effs, k1, k2, k3⟩ := ih h1
    obtain ⟨st', effs', k4, k5⟩ := story_step hc k2 e h2
    exact ⟨st', effs ++ effs', by rw [run_snoc cfg _ _ _ _ _ k1, k4]; rfl, k5,
      owes_step hc hd k2 k3 h2 k4⟩

end Hdtn.LtpSender
