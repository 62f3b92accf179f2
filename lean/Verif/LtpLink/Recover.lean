import Verif.LtpLink.DeadEnd

/-! From a red part completed by a plain segment, the sender can still succeed. -/

namespace Hdtn.LtpLink
open Hdtn.LtpReport Hdtn.FragmentSet
open Hdtn.LtpReceiver (Seg)

section Receiver
open Hdtn.LtpReceiver

/-- The report that claims all of a red part of length `n`. -/
def full (n : Nat) : Report := ⟨0, n, [⟨0, n⟩]⟩

theorem populate_full {n : Nat} (hn : n ≠ U64 - 1) (hlt : n < U64) {r : Report}
    (h : populate [⟨0, sub64 n 1⟩] 0 n = some r) : r = full n := by
  have hU : U64 = 2 ^ 64 := rfl
  simp only [populate, List.getLast?_singleton] at h
  rw [if_neg (show ¬ (0 = U64 - 1) by omega)] at h
  rw [if_neg (show ¬ (0 = U64 - 1) by omega)] at h
  rw [if_neg hn] at h
  split at h
  · cases h
  · rename_i h0
    have hpos : 1 ≤ n := by omega
    have e1 : sub64 n 1 = n - 1 := sub64_eq _ _ (by omega) hpos
    have e2 : add64 (n - 1) 1 = n := by
      rw [add64_eq _ _ (by omega)]; omega
    have e3 : sub64 n 0 = n := sub64_eq _ _ (by omega) (by omega)
    rw [e1] at h
    have hd : List.dropWhile (fun f : Frag => f.lt ⟨0, 0⟩) [⟨0, n - 1⟩] = [⟨0, n - 1⟩] := by
      simp [Frag.lt]
    rw [hd] at h
    simp only [claimLoop, Nat.max_self, e2, e3] at h
    rw [if_neg h0, if_neg (by omega)] at h
    simp only [Option.some.injEq] at h
    rw [← h, full]
    simp

theorem issue_frags {cfg : Cfg} {st st' : State} {effs : List Eff} {c l u : Nat} {sec : Bool}
    (h : issue cfg st c l u sec = some (st', effs)) :
    st'.frags = st.frags ∧ st'.lengthOfRed = st.lengthOfRed := by
  rw [issue] at h
  have fold : ∀ (ps : List Report) (st : State), (ps.foldl (issueOne c sec) st).frags = st.frags ∧
      (ps.foldl (issueOne c sec) st).lengthOfRed = st.lengthOfRed := by
    intro ps
    induction ps with
    | nil => intro st; exact ⟨rfl, rfl⟩
    | cons p ps ih => intro st; rw [List.foldl_cons]; exact ih (issueOne c sec st p)
  split at h
  · cases h
  · split at h
    · split at h
      · simp only [Option.some.injEq, Prod.mk.injEq] at h
        rw [← h.1]; exact fold _ st
      · cases h
    · simp only [Option.some.injEq, Prod.mk.injEq] at h
      rw [← h.1]; exact ⟨rfl, rfl⟩

/-- The reports put out by a step. -/
def Adds (st st' : State) (effs : List Eff) (its : List Item) : Prop :=
  st'.out = its.foldl Out.add st.out ∧ its.length = effs.count .producible

theorem issue_adds {cfg : Cfg} {st st' : State} {effs : List Eff} {c l u : Nat} {sec : Bool}
    (h : issue cfg st c l u sec = some (st', effs)) : ∃ its, Adds st st' effs its := by
  rw [issue] at h
  split at h
  · cases h
  · split at h
    · split at h
      · rename_i pieces _
        simp only [Option.some.injEq, Prod.mk.injEq] at h
        obtain ⟨rfl, rfl⟩ := h
        refine ⟨pieces.map fun r => ⟨c, sec, r⟩, issueAll_out c sec pieces st, ?_⟩
        rw [List.length_map, List.count_eq_length.2 (by simp), List.length_map]
      · cases h
    · rename_i r _ _
      simp only [Option.some.injEq, Prod.mk.injEq] at h
      obtain ⟨rfl, rfl⟩ := h
      exact ⟨[⟨c, sec, r⟩], rfl, rfl⟩

theorem issue_adds_full {cfg : Cfg} (hm : 1 ≤ cfg.maxClaims) {st st' : State} {effs : List Eff} {c n : Nat}
    {sec : Bool} (hf : st.frags = [⟨0, sub64 n 1⟩]) (hn : n ≠ U64 - 1) (hlt : n < U64)
    (h : issue cfg st c 0 n sec = some (st', effs)) : Adds st st' effs [⟨c, sec, full n⟩] := by
  rw [issue, hf] at h
  split at h
  · cases h
  · rename_i r hr
    have := populate_full hn hlt hr
    subst this
    rw [if_neg (by simp only [full, List.length_singleton]; omega)] at h
    simp only [Option.some.injEq, Prod.mk.injEq] at h
    obtain ⟨rfl, rfl⟩ := h
    exact ⟨rfl, rfl⟩

/-- If storing says so, it has put out a report about all of the red part. -/
theorem store_adds {cfg : Cfg} (hm : 1 ≤ cfg.maxClaims) {st st' : State} {s : Seg} {b rep : Bool}
    {effs : List Eff} (h : store cfg st s b = some (st', effs, rep)) :
    st'.lengthOfRed = st.lengthOfRed ∧ ∃ its, Adds st st' effs its ∧
      (rep = true → st'.frags = [⟨0, sub64 st.lengthOfRed 1⟩] → st.lengthOfRed ≠ U64 - 1 →
        st.lengthOfRed < U64 → ∃ i ∈ its, i.report = full st.lengthOfRed) := by
  have quiet : ∀ {st0 : State}, st0 = st' → [] = effs → false = rep → st0.lengthOfRed = st.lengthOfRed → st0.out = st.out →
      st'.lengthOfRed = st.lengthOfRed ∧ ∃ its, Adds st st' effs its ∧
      (rep = true → st'.frags = [⟨0, sub64 st.lengthOfRed 1⟩] → st.lengthOfRed ≠ U64 - 1 →
        st.lengthOfRed < U64 → ∃ i ∈ its, i.report = full st.lengthOfRed) := by
    rintro st0 rfl rfl rfl h0 h1
    exact ⟨h0, [], ⟨h1, rfl⟩, by simp⟩
  rw [store] at h
  simp only at h
  split at h
  · split at h
    · cases h
    · rename_i d hd
      split at h
      · simp only [Option.some.injEq, Prod.mk.injEq] at h
        exact quiet h.1 h.2.1 h.2.2 rfl rfl
      · rw [fillGaps] at h
        split at h
        · simp only [Option.some.injEq, Prod.mk.injEq] at h
          exact quiet h.1 h.2.1 h.2.2 rfl rfl
        · rename_i p _
          split at h
          · simp only at h
            split at h
            · cases h
            · rename_i st2 effs2 hi
              simp only [Option.some.injEq, Prod.mk.injEq] at h
              obtain ⟨rfl, rfl, rfl⟩ := h
              obtain ⟨f1, f2⟩ := issue_frags hi
              refine ⟨f2, ?_⟩
              by_cases hb : (p.range.b = 0 ∧ (p.range.e + 1) % U64 = st.lengthOfRed) ∧
                  st2.frags = [⟨0, sub64 st.lengthOfRed 1⟩] ∧ st.lengthOfRed ≠ U64 - 1 ∧
                    st.lengthOfRed < U64
              · obtain ⟨⟨hb1, hb2⟩, hb3, hb4, hb5⟩ := hb
                rw [hb1, hb2] at hi
                have := issue_adds_full hm (f1.symm.trans hb3) hb4 hb5 hi
                exact ⟨_, this, fun _ _ _ _ => ⟨_, List.mem_singleton.2 rfl, rfl⟩⟩
              · obtain ⟨its, hits⟩ := issue_adds hi
                refine ⟨its, hits, fun g1 g2 g3 g4 => absurd ⟨?_, g2, g3, g4⟩ hb⟩
                simpa using g1
          · simp only [Option.some.injEq, Prod.mk.injEq] at h
            exact quiet h.1 h.2.1 h.2.2 rfl rfl
  · simp only [Option.some.injEq, Prod.mk.injEq] at h
    exact quiet h.1 h.2.1 h.2.2 rfl rfl

theorem issue_quiet {cfg : Cfg} {st st' : State} {effs : List Eff} {c l u : Nat} {sec : Bool}
    (h : issue cfg st c l u sec = some (st', effs)) : ∀ d n v b, Eff.red d n v b ∉ effs := by
  rw [issue] at h
  split at h
  · cases h
  · split at h
    · split at h
      · simp only [Option.some.injEq, Prod.mk.injEq] at h
        rw [← h.2]; simp
      · cases h
    · simp only [Option.some.injEq, Prod.mk.injEq] at h
      rw [← h.2]; simp

theorem store_quiet {cfg : Cfg} {st st' : State} {s : Seg} {b rep : Bool} {effs : List Eff}
    (h : store cfg st s b = some (st', effs, rep)) : ∀ d n v b, Eff.red d n v b ∉ effs := by
  rw [store] at h
  simp only at h
  split at h
  · split at h
    · cases h
    · split at h
      · simp only [Option.some.injEq, Prod.mk.injEq] at h
        rw [← h.2.1]; simp
      · rw [fillGaps] at h
        split at h
        · simp only [Option.some.injEq, Prod.mk.injEq] at h
          rw [← h.2.1]; simp
        · split at h
          · simp only at h
            split at h
            · cases h
            · rename_i st2 effs2 hi
              simp only [Option.some.injEq, Prod.mk.injEq] at h
              rw [← h.2.1]; exact issue_quiet hi
          · simp only [Option.some.injEq, Prod.mk.injEq] at h
            rw [← h.2.1]; simp
  · simp only [Option.some.injEq, Prod.mk.injEq] at h
    rw [← h.2.1]; simp

theorem notify_quiet (st : State) (c : Bool) (r : Reason) :
    ∀ d n v b, Eff.red d n v b ∉ (notifyDelete st c r).2 := by
  rw [notifyDelete]; split <;> simp

/-- A plain segment that completes the red part puts out a report about all of it. -/
theorem plain_delivery {cfg : Cfg} (hm : 1 ≤ cfg.maxClaims) {st st' : State} {s : Seg} {effs : List Eff}
    (hplain : s.flags = 0) (hlen : st.lengthOfRed < U64) (h : step cfg st (.data s) = some (st', effs))
    {d : Bytes} {n v : Nat} {b : Bool} (hred : Eff.red d n v b ∈ effs) :
    ∃ its, Adds st st' effs its ∧ ∃ i ∈ its, i.report = full n := by
  rw [step, dataSegment] at h
  simp only [hplain] at h
  rw [if_pos (show decide (0 ≤ 3) = true from rfl), if_neg (show ¬ (0 &&& 3 = 3) by decide),
    redSegment] at h
  simp only at h
  generalize hcur : (if decide (st.curRed < add64 s.offset s.length) = true then
    add64 s.offset s.length else st.curRed) = cur at h
  split at h
  · simp only [Option.some.injEq] at h
    have := notify_quiet { st with curRed := cur } true .miscolored d n v b
    rw [h] at this
    exact absurd hred this
  · split at h
    · simp only [Option.some.injEq, Prod.mk.injEq] at h
      rw [← h.2] at hred
      simp at hred
    · split at h
      · simp only [Option.some.injEq] at h
        have := notify_quiet { st with curRed := cur } true .systemCancelled d n v b
        rw [h] at this
        exact absurd hred this
      · split at h
        · cases h
        · rename_i st1 effs1 rep hst
          have hz : ¬ (s.flags &&& 2 ≠ 0) := by rw [hplain]; decide
          simp only [hplain, ne_eq, not_true_eq_false, if_false] at h
          have hz2 : ¬ ¬ (0 &&& 2 = 0) := by decide
          rw [if_neg hz2] at h
          split at h
          · cases h
          · rename_i st3 effs3 h3
            simp only [Option.some.injEq, Prod.mk.injEq, List.append_nil] at h
            obtain ⟨rfl, rfl⟩ := h
            have hred3 : Eff.red d n v b ∈ effs3 := by
              rcases List.mem_append.1 hred with hh | hh
              · exact absurd hh (store_quiet hst d n v b)
              · exact hh
            obtain ⟨hl, its, hadd, hrep⟩ := store_adds hm hst
            simp only at hl hrep
            rw [complete] at h3
            split at h3
            · rename_i hopen
              split at h3
              · rename_i f hf
                split at h3
                · rename_i hfe
                  have hfr : st1.frags = [⟨0, sub64 st.lengthOfRed 1⟩] := by
                    simp only at hf
                    rw [hf, ← hfe.1, ← hl, ← hfe.2]
                  simp only [hplain, true_and] at h3
                  have hne : st.lengthOfRed ≠ U64 - 1 := by rw [← hl]; exact hopen.2
                  cases rep with
                  | false =>
                    simp only [Bool.not_false, if_true] at h3
                    split at h3
                    · cases h3
                    · rename_i st4 effs4 h4
                      simp only [Option.some.injEq, Prod.mk.injEq] at h3
                      obtain ⟨rfl, rfl⟩ := h3
                      have hn : n = st.lengthOfRed := by
                        rcases List.mem_append.1 hred3 with hh | hh
                        · exact absurd hh (issue_quiet h4 d n v b)
                        · simp only [List.mem_singleton, Eff.red.injEq] at hh
                          rw [hh.2.1, (issue_frags h4).2]; exact hl
                      rw [hl] at h4
                      have k := issue_adds_full hm (by exact hfr) hne hlen h4
                      refine ⟨its ++ [⟨0, false, full st.lengthOfRed⟩], ⟨?_, ?_⟩,
                        ⟨0, false, full st.lengthOfRed⟩, by simp, by rw [hn]⟩
                      · rw [List.foldl_append]
                        have e1 : st4.out = List.foldl Out.add st1.out [⟨0, false, full st.lengthOfRed⟩] := k.1
                        have e2 : st1.out = List.foldl Out.add st.out its := hadd.1
                        rw [← e2]; exact e1
                      · have e1 := k.2
                        have e2 := hadd.2
                        simp only [List.length_append, List.count_append] at *
                        rw [e1, e2]
                        simp
                  | true =>
                    simp only [Bool.not_true, Bool.false_eq_true, if_false, Option.some.injEq,
                      Prod.mk.injEq, List.nil_append] at h3
                    obtain ⟨rfl, rfl⟩ := h3
                    have hn : n = st.lengthOfRed := by
                      simp only [List.mem_singleton, Eff.red.injEq] at hred3
                      rw [hred3.2.1]; exact hl
                    refine ⟨its, ⟨hadd.1, ?_⟩, by rw [hn]; exact hrep rfl hfr hne hlen⟩
                    rw [hadd.2, List.count_append]
                    simp
                · simp only [Option.some.injEq, Prod.mk.injEq] at h3
                  rw [← h3.2] at hred3; simp at hred3
              · simp only [Option.some.injEq, Prod.mk.injEq] at h3
                rw [← h3.2] at hred3; simp at hred3
            · simp only [Option.some.injEq, Prod.mk.injEq] at h3
              rw [← h3.2] at hred3; simp at hred3

/-- What was put out stays. -/
theorem run_sent {cfg : Cfg} (hc : cfg.Sane) (evs : List Event) (he : ∀ e ∈ evs, e.Sane) {st st' : State}
    {effs : List Eff} (h : Inv cfg st) (hr : run cfg st evs = some (st', effs)) :
    ∀ k ∈ st.sent, k ∈ st'.sent := by
  induction evs generalizing st effs with
  | nil =>
    simp only [run, Option.some.injEq, Prod.mk.injEq] at hr
    rw [← hr.1]; exact fun k hk => hk
  | cons e es ih =>
    obtain ⟨st1, effs1, g1, g2, -, -, g5, -⟩ := step_report cfg hc st h e (he e (by simp))
    rw [run, g1] at hr
    simp only at hr
    split at hr
    · cases hr
    · rename_i st2 effs2 hr2
      simp only [Option.some.injEq, Prod.mk.injEq] at hr
      obtain ⟨rfl, -⟩ := hr
      exact fun k hk => ih (fun e hh => he e (by simp [hh])) g2 hr2 k (g5 k hk)

theorem run_split {cfg : Cfg} (a b : List Event) {st st' : State} {effs : List Eff}
    (h : run cfg st (a ++ b) = some (st', effs)) :
    ∃ st1 e1 e2, run cfg st a = some (st1, e1) ∧ run cfg st1 b = some (st', e2) ∧ effs = e1 ++ e2 := by
  induction a generalizing st effs with
  | nil => exact ⟨st, [], effs, rfl, h, rfl⟩
  | cons x a ih =>
    rw [List.cons_append, run] at h
    split at h
    · cases h
    · rename_i st1 e1 h1
      split at h
      · cases h
      · rename_i st2 e2 h2
        simp only [Option.some.injEq, Prod.mk.injEq] at h
        obtain ⟨rfl, rfl⟩ := h
        obtain ⟨st3, e3, e4, k1, k2, rfl⟩ := ih h2
        refine ⟨st3, e1 ++ e3, e4, ?_, k2, by rw [List.append_assoc]⟩
        rw [run, h1]; simp only; rw [k1]

/-- If a plain segment completed the red part, a report about all of it was put out. -/
theorem full_sent {cfg : Cfg} (hc : cfg.Sane) {red : Bytes} (hpos : 1 ≤ red.length)
    (hmax : red.length ≤ cfg.maxRedRx) {serial : Nat} (hs : serial < 2 ^ 64) {pre post : List Event} {s : Seg}
    (hf : Faithful red (pre ++ .data s :: post)) (hplain : s.flags = 0) (hopen : ¬ Arrived red pre)
    (harr : Arrived red (pre ++ [.data s])) {st : State} {effs : List Eff}
    (hr : run cfg (init serial) (pre ++ .data s :: post) = some (st, effs))
    (hcount : effs.count .producible ≤ 2 ^ 64) :
    ∃ n c, (n, c, full red.length) ∈ st.sent := by
  have hsub : ∀ {l}, l <+: pre ++ .data s :: post → Faithful red l := by
    intro l hl
    exact ⟨fun t ht => hf.1 t (hl.subset ht), fun t u a b c ht hu => hf.2 t u a b c (hl.subset ht) (hl.subset hu)⟩
  have hsane : ∀ e ∈ pre ++ Event.data s :: post, e.Sane := by
    intro e he
    cases e with
    | data t => exact (hf.1 t he).toSane
    | _ => trivial
  have e0 : pre ++ Event.data s :: post = pre ++ [.data s] ++ post := by simp
  have hp1 : pre <+: pre ++ Event.data s :: post := List.prefix_append _ _
  have hp2 : pre ++ [Event.data s] <+: pre ++ Event.data s :: post := by rw [e0]; exact List.prefix_append _ _
  have hf1 := hsub hp1
  have hf2 := hsub hp2
  rw [e0] at hr
  obtain ⟨st2, f2, f3, r1, r2, rfl⟩ := run_split _ _ hr
  obtain ⟨st1, f1, r3, h3⟩ := honest_run cfg hc red hpos hmax serial pre hf1.1 hf1.2
  obtain ⟨st2', f2', r4, h4⟩ := honest_run cfg hc red hpos hmax serial _ hf2.1 hf2.2
  rw [r1] at r4
  simp only [Option.some.injEq, Prod.mk.injEq] at r4
  obtain ⟨rfl, rfl⟩ := r4
  obtain ⟨st3, f4, r5, h5, h6⟩ := retry_run cfg hc serial hs pre fun e he => hsane e (hp1.subset he)
  rw [r3] at r5
  simp only [Option.some.injEq, Prod.mk.injEq] at r5
  obtain ⟨rfl, rfl⟩ := r5
  rw [run_snoc _ _ _ _ _ _ r3] at r1
  split at r1
  · cases r1
  · rename_i st2 effs2 hstep
    simp only [Option.some.injEq, Prod.mk.injEq] at r1
    obtain ⟨rfl, rfl⟩ := r1
    have hdel : ∃ d n v b, Eff.red d n v b ∈ effs2 ∧ n = red.length := by
      have k1 := h3.delivered
      have k2 := h4.delivered
      rw [if_neg (fun hh => hopen (h3.tracks.done.1 hh))] at k1
      have k3 : deliveries (f1 ++ effs2) = deliveries f1 ++ deliveries effs2 := List.filterMap_append
      rw [if_pos (h4.tracks.done.2 harr), k3, k1, List.nil_append] at k2
      have hm : (red, red.length) ∈ deliveries effs2 := by rw [k2]; simp
      obtain ⟨e, he, hh⟩ := List.mem_filterMap.1 hm
      cases e with
      | red d n v b =>
        simp only [Option.some.injEq, Prod.mk.injEq] at hh
        exact ⟨d, n, v, b, he, hh.2⟩
      | _ => simp at hh
    obtain ⟨d, n, v, b, hd, rfl⟩ := hdel
    obtain ⟨its, hits, i, hi, hfull⟩ := plain_delivery hc.claims hplain h5.lengthOfRed hstep hd
    simp only [List.count_append] at hcount
    obtain ⟨⟨k, hk, hretry⟩, -⟩ := h6 (by omega)
    obtain ⟨m, hm, -⟩ := issued_sent cfg serial f1 _ its k _ hretry (by rw [hits.2]; omega) i hi
    rw [← hits.1] at hm
    refine ⟨m, i.checkpoint, run_sent hc post (fun e he => hsane e (by simp [he])) h4.inv r2 _ ?_⟩
    rw [← hfull]; exact hm

end Receiver

section Sender
open Hdtn.LtpSender

theorem first_no_failure {cfg : Cfg} {st st' : State} {effs : List Eff}
    (h : step cfg st .first = some (st', effs)) : ∀ r, Eff.delete true r ∉ effs := by
  intro x
  rw [step, firstPass] at h
  split at h
  · have key : ∀ st1 effs1, (if st.index < cfg.red then firstRed cfg st else firstGreen cfg st) =
        some (st1, effs1) → ∃ s, effs1 = [.first s] := by
      intro st1 effs1 h1
      split at h1
      · exact (firstRed_kept cfg st st1 effs1 h1).2
      · exact (firstGreen_kept cfg st st1 effs1 h1).2
    generalize (if st.index < cfg.red then firstRed cfg st else firstGreen cfg st) = o at h key
    cases o with
    | none => cases h
    | some p =>
      obtain ⟨st1, effs1⟩ := p
      obtain ⟨s, rfl⟩ := key st1 effs1 rfl
      simp only at h
      split at h
      · split at h
        · rw [notifyDelete_spec] at h
          simp only [Option.some.injEq, Prod.mk.injEq] at h
          rw [← h.2]; split <;> simp
        · simp only [Option.some.injEq, Prod.mk.injEq] at h
          rw [← h.2]; simp
      · simp only [Option.some.injEq, Prod.mk.injEq] at h
        rw [← h.2]; simp
  · simp only [Option.some.injEq, Prod.mk.injEq] at h
    rw [← h.2]; simp

theorem report_no_failure {cfg : Cfg} {st st' : State} {effs : List Eff} {n c : Nat} {r : Report}
    (h : step cfg st (.report n c r) = some (st', effs)) : ∀ x, Eff.delete true x ∉ effs := by
  intro x
  rw [step, reportSegment] at h
  simp only at h
  by_cases hs : n ∈ st.seen
  · simp only [hs, if_true, Option.some.injEq, Prod.mk.injEq, List.nil_append] at h
    rw [← h.2]; split <;> simp
  · simp only [hs, if_false] at h
    cases hnew : (addReport st.acked r).2 with
    | false =>
      simp only [hnew, Bool.false_eq_true, if_false, Option.some.injEq, Prod.mk.injEq,
        List.nil_append] at h
      rw [← h.2]; split <;> simp
    | true =>
      simp only [hnew, if_true, newClaims] at h
      by_cases hd : st.index = cfg.block.length ∧
          (st.allRed || redAcked cfg (addReport st.acked r).1) = true
      · rw [if_pos hd, notifyDelete_spec] at h
        simp only at h
        split at h
        · cases h
        · rename_i st1 effs1 h1
          split at h1
          · cases h1
          · simp only [Option.some.injEq, Prod.mk.injEq] at h1 h
            rw [← h.2, ← h1.2]; split <;> split <;> simp
      · rw [if_neg hd] at h
        simp only at h
        split at h
        · cases h
        · rename_i st1 effs1 h1
          split at h1
          · cases h1
          · simp only [Option.some.injEq, Prod.mk.injEq] at h1 h
            rw [← h.2, ← h1.2]; split <;> simp

/-- If all reports with this serial number are the same, the first of them was accepted. -/
theorem accepted_of_mem {evs : List Event} {n c : Nat} {r : Report} (hm : Event.report n c r ∈ evs)
    (hu : ∀ c' r', Event.report n c' r' ∈ evs → r' = r) : Accepted evs r := by
  have key : ∃ pre c' post, evs = pre ++ .report n c' r :: post ∧
      ∀ c' r', Event.report n c' r' ∉ pre := by
    induction evs with
    | nil => simp at hm
    | cons e es ih =>
      by_cases he : ∃ c' r', e = .report n c' r'
      · obtain ⟨c', r', rfl⟩ := he
        have := hu c' r' (by simp)
        subst this
        exact ⟨[], c', es, rfl, by simp⟩
      · rcases List.mem_cons.1 hm with rfl | hm
        · exact absurd ⟨c, r, rfl⟩ he
        · obtain ⟨pre, c', post, e1, e2⟩ := ih hm fun c' r' h => hu c' r' (by simp [h])
          refine ⟨e :: pre, c', post, by rw [e1]; rfl, ?_⟩
          intro c'' r'' hh
          rcases List.mem_cons.1 hh with h | h
          · exact he ⟨c'', r'', h.symm⟩
          · exact e2 c'' r'' h
  obtain ⟨pre, c', post, e1, e2⟩ := key
  exact ⟨pre, n, c', post, e1, e2⟩

end Sender

/-- The receiver may send what it has queued. -/
theorem leads_next {cs : LtpSender.Cfg} {cr : LtpReceiver.Cfg} (k : Nat) {sys : Sys} {r' : LtpReceiver.State}
    {effs : List LtpReceiver.Eff}
    (h : LtpReceiver.run cr sys.r (List.replicate k .next) = some (r', effs)) :
    ∃ sys', Leads cs cr sys sys' ∧ sys'.sevs = sys.sevs ∧ sys'.seffs = sys.seffs ∧
      sys'.reffs = sys.reffs ++ effs ∧ sys'.r = r' := by
  induction k generalizing sys effs with
  | zero =>
    simp only [List.replicate_zero, LtpReceiver.run, Option.some.injEq, Prod.mk.injEq] at h
    exact ⟨sys, .refl _, rfl, rfl, by rw [← h.2]; simp, h.1⟩
  | succ k ih =>
    rw [List.replicate_succ, LtpReceiver.run] at h
    split at h
    · cases h
    · rename_i st1 e1 h1
      split at h
      · cases h
      · rename_i st2 e2 h2
        simp only [Option.some.injEq, Prod.mk.injEq] at h
        obtain ⟨rfl, rfl⟩ := h
        have hact : act cs cr sys (.receiver .next) = some { sys with
            revs := sys.revs ++ [.next]
            r := st1
            reffs := sys.reffs ++ e1 } := by rw [act, h1]
        obtain ⟨sys', l1, l2, l3, l4, l5⟩ := ih (sys := { sys with
            revs := sys.revs ++ [.next]
            r := st1
            reffs := sys.reffs ++ e1 }) h2
        refine ⟨sys', Leads.trans (.step _ _ _ _ (.refl _) ?_ hact) l1, l2, l3, ?_, l5⟩
        · trivial
        · rw [l4]; simp

end Hdtn.LtpLink
