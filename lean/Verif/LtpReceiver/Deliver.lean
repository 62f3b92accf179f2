import Verif.LtpReceiver.Step

namespace Hdtn.LtpReceiver
open Hdtn.FragmentSet Hdtn.LtpReport

/-! ### Delivery of the red part -/

theorem got_snoc (evs : List Event) (e : Event) (x : Nat) :
    Got (evs ++ [e]) x ↔ Got evs x ∨ ∃ s, e = .data s ∧ s.IsRed ∧ s.Has x := by
  simp only [Got, List.mem_append, List.mem_singleton]
  constructor
  · rintro ⟨s, h | h, h'⟩
    · exact .inl ⟨s, h, h'⟩
    · exact .inr ⟨s, h.symm, h'⟩
  · rintro (⟨s, h, h'⟩ | ⟨s, h, h'⟩)
    · exact ⟨s, .inl h, h'⟩
    · exact ⟨s, .inr h.symm, h'⟩

theorem endKnown_snoc (evs : List Event) (e : Event) :
    EndKnown (evs ++ [e]) ↔ EndKnown evs ∨ ∃ s, e = .data s ∧ s.EndsRed := by
  simp only [EndKnown, List.mem_append, List.mem_singleton]
  constructor
  · rintro ⟨s, h | h, h'⟩
    · exact .inl ⟨s, h, h'⟩
    · exact .inr ⟨s, h.symm, h'⟩
  · rintro (⟨s, h, h'⟩ | ⟨s, h, h'⟩)
    · exact ⟨s, .inl h, h'⟩
    · exact ⟨s, .inr h.symm, h'⟩

theorem endsRed_isRed (s : Seg) (h : s.EndsRed) : s.IsRed := by
  simp only [Seg.EndsRed] at h; simp only [Seg.IsRed]; omega

theorem deliveries_append (a b : List Eff) :
    deliveries (a ++ b) = deliveries a ++ deliveries b := by
  rw [deliveries, List.filterMap_append]; rfl

theorem deliveries_none (effs : List Eff) (h : ∀ d n v e, Eff.red d n v e ∉ effs) :
    deliveries effs = [] := by
  rw [deliveries, List.filterMap_eq_nil_iff]
  intro e he
  split
  · exact absurd he (h _ _ _ _)
  · rfl

theorem Quiet.no_red {effs : List Eff} (h : Quiet effs) : ∀ d n v e, Eff.red d n v e ∉ effs := by
  intro d n v e he
  cases h _ he

/-- How the state of a session relates to what has arrived, for an honest sender. -/
structure Tracks (red : Bytes) (pre : List Event) (st : State) : Prop where
  curRed : st.curRed ≤ red.length
  green : red.length ≤ st.lowestGreen
  covers : ∀ x, Covers st.frags x ↔ Got pre x
  bytes : st.didRed = false → ∀ x, Covers st.frags x → st.data[x]? = red[x]?
  known : st.didRed = false → EndKnown pre → st.lengthOfRed = red.length
  unknown : st.didRed = false → ¬ EndKnown pre → st.lengthOfRed = 2 ^ 64 - 1
  checkpoints : st.didRed = false → ∀ a, a ∈ st.checkpoints →
    ∃ s r, Event.data s ∈ pre ∧ s.IsCheckpoint ∧ s.checkpoint = some (a, r)
  done : st.didRed = true ↔ Arrived red pre

theorem got_lt (red : Bytes) (pre : List Event)
    (hp : ∀ s, Event.data s ∈ pre → s.PieceOf red) (x : Nat) (h : Got pre x) : x < red.length := by
  obtain ⟨s, hs, hr, h1, h2⟩ := h
  have := (hp s hs).red_inside hr
  omega

/-- With everything stored, completeness is arrival of everything. -/
theorem complete_iff (cfg : Cfg) (red : Bytes) (hpos : 1 ≤ red.length)
    (hlt : red.length < 2 ^ 64 - 1) (pre : List Event)
    (hp : ∀ s, Event.data s ∈ pre → s.PieceOf red) (m : State) (hsafe : Safe cfg m)
    (hd : m.didRed = false) (hcov : ∀ x, Covers m.frags x ↔ Got pre x)
    (hk : EndKnown pre → m.lengthOfRed = red.length)
    (hu : ¬ EndKnown pre → m.lengthOfRed = 2 ^ 64 - 1) :
    Complete m ↔ Arrived red pre := by
  constructor
  · rintro ⟨-, h2, h3, h4⟩
    have hend : EndKnown pre := by
      by_contra hn
      exact h2 (hu hn)
    refine ⟨fun x hx => ?_, hend⟩
    rw [← hcov, h4]
    rw [hk hend]
    refine ⟨⟨0, red.length - 1⟩, by simp, ?_⟩
    simp only [Frag.Has]; omega
  · rintro ⟨h1, h2⟩
    have hl := hk h2
    refine ⟨hd, by omega, by omega, ?_⟩
    rw [hl]
    refine canonical_unique _ _ hsafe.canon ?_ fun x => ?_
    · refine ⟨?_, by simp⟩
      intro f hf
      simp only [List.mem_singleton] at hf
      subst hf
      simp only [Frag.Valid]; omega
    · rw [hcov]
      constructor
      · intro hg
        have := got_lt red pre hp x hg
        refine ⟨⟨0, red.length - 1⟩, by simp, ?_⟩
        simp only [Frag.Has]; omega
      · rintro ⟨f, hf, hx⟩
        simp only [List.mem_singleton] at hf
        subst hf
        simp only [Frag.Has] at hx
        exact h1 x (by omega)

theorem tracks_init (red : Bytes) (hpos : 1 ≤ red.length) (hlt : red.length < 2 ^ 64 - 1)
    (serial : Nat) : Tracks red [] (init serial) where
  curRed := by simp [init]
  green := by simp only [init, U64]; omega
  covers := fun x => ⟨fun h => absurd h (covers_nil x), by rintro ⟨s, h, -⟩; simp at h⟩
  bytes := fun _ x h => absurd h (covers_nil x)
  known := fun _ => by rintro ⟨s, h, -⟩; simp at h
  unknown := fun _ _ => rfl
  checkpoints := fun _ a h => by simp [init] at h
  done := ⟨fun h => (by cases h), fun h => by
    obtain ⟨-, s, hs, -⟩ := h
    simp at hs⟩

theorem arrived_mono (red : Bytes) (pre : List Event) (e : Event) (h : Arrived red pre) :
    Arrived red (pre ++ [e]) :=
  ⟨fun x hx => (got_snoc pre e x).2 (.inl (h.1 x hx)), (endKnown_snoc pre e).2 (.inl h.2)⟩

/-- An event that does not touch what was received. -/
theorem tracks_other (red : Bytes) (pre : List Event) (st st' : State) (e : Event)
    (ht : Tracks red pre st) (he : ∀ s, e = .data s → ¬ s.IsRed)
    (h1 : st'.curRed = st.curRed) (h2 : red.length ≤ st'.lowestGreen)
    (h3 : st'.didRed = st.didRed) (h4 : st'.frags = st.frags) (h5 : st'.data = st.data)
    (h6 : st'.lengthOfRed = st.lengthOfRed) (h7 : st'.checkpoints = st.checkpoints) :
    Tracks red (pre ++ [e]) st' := by
  have hgot : ∀ x, Got (pre ++ [e]) x ↔ Got pre x := by
    intro x
    rw [got_snoc]
    exact ⟨fun h => h.resolve_right (by rintro ⟨s, hs, hr, -⟩; exact he s hs hr), .inl⟩
  have hend : EndKnown (pre ++ [e]) ↔ EndKnown pre := by
    rw [endKnown_snoc]
    exact ⟨fun h => h.resolve_right (by
      rintro ⟨s, hs, hr⟩; exact he s hs (endsRed_isRed s hr)), .inl⟩
  refine ⟨by rw [h1]; exact ht.curRed, h2, ?_, ?_, ?_, ?_, ?_, ?_⟩
  · intro x; rw [h4, hgot]; exact ht.covers x
  · intro h x hx; rw [h5]; rw [h4] at hx; exact ht.bytes (h3 ▸ h) x hx
  · intro h hk; rw [h6]; exact ht.known (h3 ▸ h) (hend.1 hk)
  · intro h hk; rw [h6]; exact ht.unknown (h3 ▸ h) (fun h => hk (hend.2 h))
  · intro h a ha
    rw [h7] at ha
    obtain ⟨s, r, hs, hr⟩ := ht.checkpoints (h3 ▸ h) a ha
    exact ⟨s, r, List.mem_append_left _ hs, hr⟩
  · rw [h3, ht.done, Arrived, Arrived, hend]
    simp only [hgot]

theorem tracks_step (cfg : Cfg) (hc : cfg.Sane) (red : Bytes) (hpos : 1 ≤ red.length)
    (hmax : red.length ≤ cfg.maxRedRx) (pre : List Event) (e : Event)
    (hp : ∀ s, Event.data s ∈ pre ++ [e] → s.PieceOf red) (hcons : Consistent (pre ++ [e]))
    (st : State) (hinv : Inv cfg st) (ht : Tracks red pre st) :
    ∃ st' effs, step cfg st e = some (st', effs) ∧ Inv cfg st' ∧ Tracks red (pre ++ [e]) st' ∧
      deliveries effs = (if st'.didRed = true ∧ st.didRed = false then [(red, red.length)] else []) ∧
      ∀ d n v b, Eff.red d n v b ∈ effs → ∃ s, e = .data s ∧ s.IsRed ∧ v = s.service ∧
        b = if s.EndsBlock then true else st.eobRed := by
  have hred := hc.red
  have quiet : ∀ (st' : State) (effs : List Eff), st'.didRed = st.didRed →
      (∀ d n v b, Eff.red d n v b ∉ effs) →
      deliveries effs =
        (if st'.didRed = true ∧ st.didRed = false then [(red, red.length)] else []) ∧
      ∀ d n v b, Eff.red d n v b ∈ effs → ∃ s, e = .data s ∧ s.IsRed ∧ v = s.service ∧
        b = if s.EndsBlock then true else st.eobRed := by
    intro st' effs h1 h2
    refine ⟨?_, fun d n v b h => absurd h (h2 d n v b)⟩
    rw [deliveries_none effs h2, if_neg]
    rintro ⟨a, b⟩
    rw [h1, b] at a; cases a
  cases e with
  | ack n =>
    obtain ⟨t, b, h1, h2, h3, -⟩ := reportAck_spec cfg st hinv n
    refine ⟨(reportAck st n).1, (reportAck st n).2, rfl, h2, tracks_other red pre st _ _ ht (by simp) (by rw [h1])
      (by rw [h1]; exact ht.green) (by rw [h1]) (by rw [h1]) (by rw [h1]) (by rw [h1])
      (by rw [h1]), quiet _ _ (by rw [h1]) h3⟩
  | reportExpired n =>
    obtain ⟨q, t, b, h1, h2, h3, -⟩ := reportExpired_spec cfg st hinv n
    refine ⟨(reportExpired cfg st n).1, (reportExpired cfg st n).2, rfl, h2, tracks_other red pre st _ _ ht (by simp) (by rw [h1])
      (by rw [h1]; exact ht.green) (by rw [h1]) (by rw [h1]) (by rw [h1]) (by rw [h1])
      (by rw [h1]), quiet _ _ (by rw [h1]) h3⟩
  | delayExpired n =>
    obtain ⟨st', effs, n', s, l, q, ps, ts, h0, h2, h3, -, h1, -⟩ := delayExpired_spec cfg hc st hinv n
    refine ⟨st', effs, h0, h2, tracks_other red pre st _ _ ht (by simp) (by rw [h1])
      (by rw [h1]; exact ht.green) (by rw [h1]) (by rw [h1]) (by rw [h1]) (by rw [h1])
      (by rw [h1]), quiet _ _ (by rw [h1]) h3.no_red⟩
  | next =>
    obtain ⟨st', effs, q, t, h0, h2, h1, h3, -⟩ := nextDataToSend_spec cfg st hinv
    refine ⟨st', effs, h0, h2, tracks_other red pre st _ _ ht (by simp) (by rw [h1])
      (by rw [h1]; exact ht.green) (by rw [h1]) (by rw [h1]) (by rw [h1]) (by rw [h1])
      (by rw [h1]), quiet _ _ (by rw [h1]) h3⟩
  | data s =>
    have hps : s.PieceOf red := hp s (by simp)
    -- the end-of-block flags
    obtain ⟨st0, hst0, hinv0, hfr⟩ : ∃ st0 : State,
        (if s.flags &&& 3 = 3 then { st with eob := true, eobRed := decide (s.flags ≤ 3) } else st)
          = st0 ∧ Inv cfg st0 ∧ ∃ a, st0 = { st with
            eob := a, eobRed := if s.EndsBlock then decide (s.flags ≤ 3) else st.eobRed } := by
      refine ⟨_, rfl, ?_, ?_⟩
      · split
        · exact eobUpdate_inv cfg st hinv _ _
        · exact hinv
      · split
        · rename_i h
          exact ⟨true, by rw [if_pos ((flags_eob s hps.flags).1 h)]⟩
        · rename_i h
          exact ⟨st.eob, by rw [if_neg fun h' => h ((flags_eob s hps.flags).2 h')]⟩
    obtain ⟨a0, hfr⟩ := hfr
    rw [step, dataSegment, hst0]
    split
    · rename_i hr
      have hr : s.IsRed := by simpa [Seg.IsRed] using hr
      have hin := hps.red_inside hr
      have hcur := ht.curRed
      have hgreen := ht.green
      obtain ⟨st', effs, e1, e2, -, e3⟩ := redSegment_spec cfg hc st0 hinv0 s hps.toSane hr
      refine ⟨st', effs, e1, e2, ?_⟩
      have hc0 : st0.curRed = st.curRed := by rw [hfr]
      have hg0 : st0.lowestGreen = st.lowestGreen := by rw [hfr]
      have hd0 : st0.didRed = st.didRed := by rw [hfr]
      have hf0 : st0.frags = st.frags := by rw [hfr]
      have hD0 : st0.data = st.data := by rw [hfr]
      have hl0 : st0.lengthOfRed = st.lengthOfRed := by rw [hfr]
      have hk0 : st0.checkpoints = st.checkpoints := by rw [hfr]
      rcases e3 with ⟨hb, ⟨b, hst'⟩, hdel, -⟩ | ⟨hnb, m, hm, hm1, hm2⟩
      · -- refused: only because the red part was delivered
        rw [hc0, hg0, hd0] at hb
        have hdone : st.didRed = true := by
          rcases hb with hb | hb | hb
          · omega
          · exact hb
          · omega
        have hd' : st'.didRed = true := by rw [hst']; simp only; rw [hd0, hdone]
        refine ⟨⟨?_, ?_, ?_, ?_, ?_, ?_, ?_, ?_⟩, quiet _ _ (by rw [hd', hdone]) ?_⟩
        · rw [hst']; simp only; rw [hc0]; omega
        · rw [hst']; simp only; rw [hg0]; exact hgreen
        · intro x
          rw [hst']; simp only; rw [hf0, ht.covers]
          refine ⟨fun h => (got_snoc _ _ _).2 (.inl h), fun h => ?_⟩
          exact (ht.done.1 hdone).1 x (got_lt red _ hp x h)
        · intro h; rw [hd'] at h; cases h
        · intro h; rw [hd'] at h; cases h
        · intro h; rw [hd'] at h; cases h
        · intro h; rw [hd'] at h; cases h
        · exact ⟨fun _ => arrived_mono red pre _ (ht.done.1 hdone), fun _ => hd'⟩
        · intro d n v b he
          obtain ⟨r, h, -⟩ := hdel _ he
          cases h
      · -- stored
        rw [hc0, hg0, hd0] at hnb
        have hnd : st.didRed = false := by
          cases h : st.didRed with
          | false => rfl
          | true => exact absurd (.inr (.inl h)) hnb
        have hcovm : ∀ x, Covers m.frags x ↔ Got (pre ++ [.data s]) x := by
          intro x
          rw [hm.covers, hf0, ht.covers, got_snoc]
          constructor
          · rintro (h | h)
            · exact .inl h
            · exact .inr ⟨s, rfl, hr, h⟩
          · rintro (h | ⟨s', h, -, h'⟩)
            · exact .inl h
            · simp only [Event.data.injEq] at h
              subst h; exact .inr h'
        have hkm : EndKnown (pre ++ [.data s]) → m.lengthOfRed = red.length := by
          intro hk
          by_cases hs : s.EndsRed
          · rw [hm.lengthOfRed.1 hs]; exact hps.red_end hs
          · rw [hm.lengthOfRed.2 hs, hl0]
            refine ht.known hnd ?_
            rcases (endKnown_snoc _ _).1 hk with h | ⟨s', h, h'⟩
            · exact h
            · simp only [Event.data.injEq] at h
              subst h; exact absurd h' hs
        have hum : ¬ EndKnown (pre ++ [.data s]) → m.lengthOfRed = 2 ^ 64 - 1 := by
          intro hk
          rw [endKnown_snoc] at hk
          push Not at hk
          rw [hm.lengthOfRed.2 (hk.2 s rfl), hl0]
          exact ht.unknown hnd hk.1
        have hbm : ∀ x, Covers m.frags x → m.data[x]? = red[x]? := by
          intro x hx
          rcases hm.bytes _ (hps.red_bytes hr) x hx with ⟨h1, h2⟩ | ⟨h1, h2⟩
          · rw [h2, hD0]; rw [hf0] at h1; exact ht.bytes hnd x h1
          · simp only [Seg.Has] at h1
            rw [h2, List.getElem?_take_of_lt (by omega), List.getElem?_drop]
            congr 1; omega
        have hcm : ∀ a, a ∈ m.checkpoints →
            ∃ s' r, Event.data s' ∈ pre ++ [.data s] ∧ s'.IsCheckpoint ∧
              s'.checkpoint = some (a, r) := by
          intro a ha
          rcases (hm.checkpoints a).1 ha with h | ⟨h1, r, h2⟩
          · rw [hk0] at h
            obtain ⟨s', r, h1, h2⟩ := ht.checkpoints hnd a h
            exact ⟨s', r, List.mem_append_left _ h1, h2⟩
          · exact ⟨s, r, by simp, h1, h2⟩
        have hcurm : m.curRed ≤ red.length := by rw [hm.curRed, hc0]; omega
        have hgm : red.length ≤ m.lowestGreen := by rw [hm.lowestGreen, hg0]; exact hgreen
        have hcomp := complete_iff cfg red hpos (by omega) (pre ++ [.data s]) hp m hm.safe hm.didRed
          hcovm hkm hum
        by_cases hgo : ¬ Early st0 s ∧ Complete m
        · -- delivery
          obtain ⟨n, sn, l, q, hst', q', hq', heff⟩ := hm2 hgo
          have hd' : st'.didRed = true := by rw [hst']
          have harr := hcomp.1 hgo.2
          have hdata : m.data = red := by
            apply List.ext_getElem?
            intro x
            by_cases hx : x < red.length
            · exact hbm x ((hcovm x).2 (harr.1 x hx))
            · have h1 := hm.length
              rw [List.getElem?_eq_none (by omega), List.getElem?_eq_none (by omega)]
          have hlen := hkm harr.2
          refine ⟨⟨?_, ?_, ?_, ?_, ?_, ?_, ?_, ?_⟩, ?_, ?_⟩
          · rw [hst']; exact hcurm
          · rw [hst']; exact hgm
          · rw [hst']; exact hcovm
          · intro h; rw [hd'] at h; cases h
          · intro h; rw [hd'] at h; cases h
          · intro h; rw [hd'] at h; cases h
          · intro h; rw [hd'] at h; cases h
          · exact ⟨fun _ => harr, fun _ => hd'⟩
          · rw [if_pos ⟨hd', hnd⟩, heff, deliveries_append, deliveries_none _ hq'.no_red, hdata, hlen]
            rfl
          · intro d n v b he
            rw [heff] at he
            rcases List.mem_append.1 he with he | he
            · exact absurd he (hq'.no_red d n v b)
            · simp only [List.mem_singleton, Eff.red.injEq] at he
              refine ⟨s, rfl, hr, he.2.2.1, ?_⟩
              rw [he.2.2.2, hm.eobRed, hfr]
              simp only
              split
              · simpa [Seg.IsRed] using hr
              · rfl
        · -- nothing delivered
          have hor : Early st0 s ∨ ¬ Complete m := by
            by_cases h : Early st0 s
            · exact .inl h
            · exact .inr fun h' => hgo ⟨h, h'⟩
          obtain ⟨hst', hq⟩ := hm1 hor
          subst hst'
          refine ⟨⟨hcurm, hgm, hcovm, fun _ => hbm, fun _ => hkm, fun _ => hum,
            fun _ => hcm, ?_⟩, quiet _ _ (by rw [hm.didRed, hnd]) hq.no_red⟩
          rw [hm.didRed]
          simp only [Bool.false_eq_true, false_iff]
          intro harr
          rcases hor with ⟨hcp, hnone | ⟨a, r, hck, hin⟩⟩ | h
          · exact hps.serials hcp hnone
          · -- a copy of an earlier checkpoint brings nothing new
            rw [hk0] at hin
            obtain ⟨t, r', ht1, ht2, ht3⟩ := ht.checkpoints hnd a hin
            obtain ⟨g1, g2, g3⟩ := hcons s t a r r' (by simp) (List.mem_append_left _ ht1) hcp ht2
              hck ht3
            have htr : t.IsRed := by
              simp only [Seg.IsRed] at hr ⊢; omega
            have : Arrived red pre := by
              refine ⟨fun x hx => ?_, ?_⟩
              · rcases (got_snoc _ _ _).1 (harr.1 x hx) with h | ⟨s', h, -, h'⟩
                · exact h
                · simp only [Event.data.injEq] at h
                  subst h
                  refine ⟨t, ht1, htr, ?_⟩
                  simp only [Seg.Has] at h' ⊢; omega
              · rcases (endKnown_snoc _ _).1 harr.2 with h | ⟨s', h, h'⟩
                · exact h
                · simp only [Event.data.injEq] at h
                  subst h
                  refine ⟨t, ht1, ?_⟩
                  simp only [Seg.EndsRed] at h' ⊢; omega
            have := ht.done.2 this
            rw [hnd] at this; cases this
          · exact h (hcomp.2 harr)
    · rename_i hr
      have hr : ¬ s.IsRed := by simpa [Seg.IsRed] using hr
      obtain ⟨st', effs, b, h0, h2, h1, h3, -⟩ := greenSegment_spec cfg st0 hinv0 s hps.toSane
      refine ⟨st', effs, h0, h2, tracks_other red pre st _ _ ht ?_ (by rw [h1, hfr])
        ?_ (by rw [h1, hfr]) (by rw [h1, hfr]) (by rw [h1, hfr]) (by rw [h1, hfr])
        (by rw [h1, hfr]), quiet _ _ (by rw [h1, hfr]) h3⟩
      · intro s' h
        simp only [Event.data.injEq] at h
        subst h; exact hr
      · rw [h1, hfr]
        have := hps.green_after hr
        have := ht.green
        simp only; omega

end Hdtn.LtpReceiver
