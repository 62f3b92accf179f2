import Verif.Stream.Lemmas

/-!
Histories of the sender and the receiver.
-/

namespace Hdtn.Stream

open Spec

/-- The packets that pass. -/
abbrev passing (ps : List Bytes) : List Bytes := ps.filter fun p => decide (Passes p)

theorem given_append (a b : List Ev) : given (a ++ b) = given a ++ given b := by
  induction a with
  | nil => rfl
  | cons e a ih => cases e <;> simp [given, ih]

theorem run_append (c : Cfg) (s : Send) (a b : List Ev) : s.run c (a ++ b) = (s.run c a).run c b := List.foldl_append

theorem calm_append (c : Cfg) (s : Send) (a b : List Ev) : Calm c s (a ++ b) ↔ Calm c s a ∧ Calm c (s.run c a) b := by
  induction a generalizing s with
  | nil => simp [Calm, Send.run]
  | cons e a ih => simp only [List.cons_append, Calm, ih, and_assoc]; rfl

theorem inv_start (c : Cfg) : Inv c Send.start [] [] [] [] := by
  refine ⟨rfl, fun _ => rfl, ?_, rfl, rfl, by simp, by simp [Send.start], by simp [Send.way, Send.start], by simp [Send.way, Send.start], rfl⟩
  simp; omega

theorem inv_step {c : Cfg} {s : Send} {g : List Bytes} {sg og : List (List Bytes)} {grp : List Bytes} (hp : c.perBundle < 2 ^ 16)
    (hg : ∀ p ∈ g, p.length < 2 ^ 32) (h : Inv c s g sg og grp) (e : Ev) (hc : s.reserved = none ∨ (s.step c e).outOverruns = s.outOverruns) :
    ∃ sg' og' grp', Inv c (s.step c e) (g ++ passing (given [e])) sg' og' grp' := by
  cases e with
  | packet p => exact ⟨sg, og, grp, inv_packet h p⟩
  | take => simpa [given] using ⟨sg, og, grp, inv_take h⟩
  | handle =>
    obtain ⟨og', grp', h'⟩ := inv_handle hp hg h hc
    simpa [given] using ⟨sg, og', grp', h'⟩
  | step1 => simpa [given] using ⟨sg, og, grp, inv_step1 h⟩
  | step2 junk =>
    obtain ⟨sg', og', h'⟩ := inv_step2 h junk
    simpa [given] using ⟨sg', og', grp, h'⟩

theorem inv_run {c : Cfg} (hp : c.perBundle < 2 ^ 16) (es : List Ev) : ∀ {s : Send} {g : List Bytes} {sg og : List (List Bytes)} {grp : List Bytes},
    (∀ p ∈ g, p.length < 2 ^ 32) → Small es → Inv c s g sg og grp → Calm c s es →
    ∃ sg' og' grp', Inv c (s.run c es) (g ++ passing (given es)) sg' og' grp' := by
  induction es with
  | nil => intro s g sg og grp _ _ h _; exact ⟨sg, og, grp, by simpa [given, Send.run] using h⟩
  | cons e es ih =>
    intro s g sg og grp hg hs h hc
    obtain ⟨sg', og', grp', h'⟩ := inv_step hp hg h e hc.1
    have egiv : given (e :: es) = given [e] ++ given es := given_append [e] es
    have hg' : ∀ p ∈ g ++ passing (given [e]), p.length < 2 ^ 32 := by
      intro p hp
      rw [List.mem_append] at hp
      rcases hp with hp | hp
      · exact hg p hp
      · apply hs p
        rw [egiv]
        exact List.mem_append_left _ (List.mem_of_mem_filter hp)
    have hs' : Small es := fun p hp => hs p (by rw [egiv]; exact List.mem_append_right _ hp)
    obtain ⟨a, b, d, h2⟩ := ih hg' hs' h' hc.2
    refine ⟨a, b, d, ?_⟩
    rw [egiv, show passing (given [e] ++ given es) = passing (given [e]) ++ passing (given es) from List.filter_append .., ← List.append_assoc]
    exact h2

theorem inv_of {c : Cfg} (hp : c.perBundle < 2 ^ 16) {es : List Ev} (hs : Small es) (hc : Calm c Send.start es) :
    ∃ sg og grp, Inv c (Send.start.run c es) (passing (given es)) sg og grp := by
  obtain ⟨a, b, d, h⟩ := inv_run hp es (by simp) hs (inv_start c) hc
  exact ⟨a, b, d, by simpa using h⟩

/-- What holds of the receiver: `gs` are the groups of packets in the payloads that arrived. -/
structure RInv (r : Receive) (gs dn qs : List (List Bytes)) : Prop where
  queue : r.queue = qs.map bundle
  out : r.out = dn.flatten
  sub : (dn ++ qs).Sublist gs
  fault : r.fault = false

theorem rinv_step {cap : Nat} {r : Receive} {gs dn qs : List (List Bytes)} (hgs : ∀ x ∈ gs, x ≠ [] ∧ ∀ p ∈ x, p.length < U64) (h : RInv r gs dn qs) :
    (∀ x, RInv (r.step cap (.payload (bundle x))) (gs ++ [x]) dn (ring cap qs x)) ∧
    ∃ dn' qs', RInv (r.step cap .process) gs dn' qs' ∧ dn' ++ qs' = dn ++ qs := by
  constructor
  · intro x
    refine ⟨?_, h.out, ?_, h.fault⟩
    · show ring cap r.queue (bundle x) = _
      rw [h.queue, ring_map]
    · refine ((List.Sublist.refl dn).append (ring_sub cap qs x)).trans ?_
      rw [← List.append_assoc]
      exact h.sub.append (List.Sublist.refl _)
  · cases qs with
    | nil =>
      refine ⟨dn, [], ?_, rfl⟩
      have : r.queue = [] := h.queue
      simp only [Receive.step, this]
      exact h
    | cons x q =>
      have hq := h.queue
      rw [List.map_cons] at hq
      have hx := hgs x (h.sub.subset (by simp))
      refine ⟨dn ++ [x], q, ?_, by simp⟩
      simp only [Receive.step, hq, unpack_bundle x hx.1 hx.2 _ (Nat.lt_succ_self _)]
      refine ⟨rfl, ?_, ?_, ?_⟩
      · show r.out ++ x = _
        rw [h.out]; simp
      · simpa using h.sub
      · show (r.fault || false) = false
        rw [h.fault]; rfl

theorem rinv_run {cap : Nat} (es : List REv) : ∀ {r : Receive} {gs dn qs more : List (List Bytes)}, (∀ x ∈ gs ++ more, x ≠ [] ∧ ∀ p ∈ x, p.length < U64) →
    RInv r gs dn qs → arrived es = more.map bundle →
    ∃ dn' qs', RInv (r.run cap es) (gs ++ more) dn' qs' ∧ (Room cap r es → dn' ++ qs' = dn ++ qs ++ more) := by
  induction es with
  | nil =>
    intro r gs dn qs more _ h ha
    cases more with
    | nil => exact ⟨dn, qs, by simpa [Receive.run] using h, by simp⟩
    | cons x more => simp [arrived] at ha
  | cons e es ih =>
    intro r gs dn qs more hm h ha
    cases e with
    | payload b =>
      cases more with
      | nil => simp [arrived] at ha
      | cons x more =>
        rw [show arrived (.payload b :: es) = b :: arrived es from rfl, List.map_cons, List.cons.injEq] at ha
        obtain ⟨hb, ha⟩ := ha
        subst hb
        have e1 : gs ++ x :: more = gs ++ [x] ++ more := by simp
        have h1 := (rinv_step (cap := cap) (fun y hy => hm y (List.mem_append_left _ hy)) h).1 x
        obtain ⟨dn', qs', h2, h3⟩ := ih (by rw [← e1]; exact hm) h1 ha
        rw [← e1] at h2
        refine ⟨dn', qs', h2, fun hr => ?_⟩
        rw [h3 hr.2]
        have hroom := hr.1 _ rfl
        rw [h.queue, List.length_map] at hroom
        rw [ring_room _ _ _ (by omega)]
        simp
    | process =>
      obtain ⟨dn1, qs1, h1, h2⟩ := (rinv_step (cap := cap) (fun y hy => hm y (List.mem_append_left _ hy)) h).2
      obtain ⟨dn', qs', h3, h4⟩ := ih hm h1 ha
      refine ⟨dn', qs', h3, fun hr => ?_⟩
      rw [h4 hr.2, h2]

/-- A list of payloads as groups of packets. -/
theorem payloads_bundle {gs : List (List Bytes)} {bs : List Bytes} (h : List.Forall₂ Payload gs bs) : bs = gs.map bundle := by
  induction h with
  | nil => rfl
  | cons h _ ih => rw [List.map_cons, ← ih, ← payload_bundle _ _ h]

theorem bundle_payloads (gs : List (List Bytes)) : List.Forall₂ Payload gs (gs.map bundle) := by
  induction gs with
  | nil => exact .nil
  | cons x gs ih => exact .cons (bundle_payload x) ih

theorem unpack_sound : ∀ fuel (b : Bytes), (unpack fuel b).2 = false → (unpack fuel b).1 ≠ [] ∧ Payload (unpack fuel b).1 b := by
  intro fuel
  induction fuel with
  | zero => intro b h; exact nomatch h
  | succ fuel ih =>
    intro b
    unfold unpack
    by_cases h8 : b.length < 8
    · rw [if_pos h8]; intro h; exact nomatch h
    · rw [if_neg h8]
      simp only
      by_cases hn : (b.drop 8).length < fromLe (b.take 8)
      · rw [if_pos hn]; intro h; exact nomatch h
      · rw [if_neg hn]
        have key : ∀ i x, (b.take 8)[i]? = some x → x.toNat = ((b.drop 8).take (fromLe (b.take 8))).length / 256 ^ i % 256 := by
          rw [List.length_take, Nat.min_eq_left (by omega)]
          have : ∀ (l : Bytes) i x, l[i]? = some x → x.toNat = fromLe l / 256 ^ i % 256 := by
            intro l
            induction l with
            | nil => intro i x h; simp at h
            | cons a l ihl =>
              intro i x h
              have ha := a.toNat_lt
              cases i with
              | zero =>
                simp only [List.getElem?_cons_zero, Option.some.injEq] at h
                subst h
                simp only [fromLe, Nat.pow_zero, Nat.div_one]
                omega
              | succ i =>
                rw [List.getElem?_cons_succ] at h
                rw [ihl i x h]
                simp only [fromLe]
                have : (a.toNat + 256 * fromLe l) / 256 = fromLe l := by omega
                rw [Nat.pow_succ, Nat.mul_comm (256 ^ i) 256, ← Nat.div_div_eq_div_mul, this]
          exact this _
        have eb : b = b.take 8 ++ (b.drop 8).take (fromLe (b.take 8)) ++ (b.drop 8).drop (fromLe (b.take 8)) := by
          rw [List.append_assoc, List.take_append_drop, List.take_append_drop]
        have hl8 : (b.take 8).length = 8 := by rw [List.length_take]; omega
        by_cases hd : (b.drop 8).drop (fromLe (b.take 8)) = []
        · rw [if_pos hd]
          intro _
          refine ⟨by simp, ?_⟩
          have := Payload.cons ((b.drop 8).take (fromLe (b.take 8))) [] (b.take 8) [] hl8 key .nil
          rw [hd] at eb
          rw [← eb] at this
          exact this
        · rw [if_neg hd]
          intro h
          refine ⟨by simp, ?_⟩
          have := Payload.cons ((b.drop 8).take (fromLe (b.take 8))) _ (b.take 8) _ hl8 key (ih _ h).2
          rw [← eb] at this
          exact this

/-- The bundles in the queue go out. -/
theorem drain_out (c : Cfg) : ∀ (n : Nat) {s : Send} {g : List Bytes} {sg og : List (List Bytes)} {grp : List Bytes}, og.length = n → Inv c s g sg og grp →
    ∃ more, given more = [] ∧ Calm c s more ∧ (∃ sg', Inv c (s.run c more) g sg' [] grp) ∧ (s.run c more).reserved = none ∧ (s.run c more).taken = s.taken ∧
      (s.run c more).incoming = s.incoming ∧ (s.run c more).inOverruns = s.inOverruns ∧ (s.run c more).outOverruns = s.outOverruns := by
  intro n
  induction n with
  | zero =>
    intro s g sg og grp hl h
    have : og = [] := List.eq_nil_of_length_eq_zero hl
    subst this
    have hr : s.reserved = none := by
      cases hr : s.reserved with
      | none => rfl
      | some n =>
        obtain ⟨x, q, h1, _⟩ := h.reserved n hr
        exact nomatch h1
    exact ⟨[], rfl, trivial, ⟨sg, h⟩, hr, rfl, rfl, rfl, rfl⟩
  | succ n ih =>
    intro s g sg og grp hl h
    cases og with
    | nil => simp at hl
    | cons x og =>
      have ho := h.outgoing
      rw [List.map_cons] at ho
      have h1 := inv_step1 h
      have hres : s.step1.reserved = some (bundle x).length := by
        unfold Send.step1
        cases hr : s.reserved with
        | some m =>
          obtain ⟨y, q, h2, h3⟩ := h.reserved m hr
          cases h2
          show s.reserved = _
          rw [hr, h3]
        | none =>
          rw [ho]
          simp only [Send.length, ho]
      have hsame : s.step1.outgoing = s.outgoing ∧ s.step1.taken = s.taken ∧ s.step1.incoming = s.incoming ∧ s.step1.inOverruns = s.inOverruns ∧
          s.step1.outOverruns = s.outOverruns := by
        unfold Send.step1; split <;> exact ⟨rfl, rfl, rfl, rfl, rfl⟩
      have e2 : s.step1.step2 (fun _ => 0) = { s.step1 with outgoing := og.map bundle, reserved := none, sent := s.step1.sent ++ [bundle x] } := by
        unfold Send.step2
        rw [hres]
        simp only [hsame.1, ho]
        rw [if_pos (Nat.le_refl _)]
        have e : ((List.range (bundle x).length).drop (bundle x).length).map (fun _ => (0 : UInt8)) = [] := by
          rw [List.drop_eq_nil_of_le (by simp)]; rfl
        rw [e, List.append_nil]
      have h2 : Inv c (s.step1.step2 (fun _ => 0)) g (sg ++ [x]) og grp := by
        rw [e2]
        have ew : Send.way { s.step1 with outgoing := og.map bundle, reserved := none, sent := s.step1.sent ++ [bundle x] } (sg ++ [x]) og grp
            = s.step1.way sg (x :: og) grp := by unfold Send.way; simp
        refine ⟨h1.group, h1.bytes, h1.few, rfl, ?_, ?_, ?_, by rw [ew]; exact h1.sub, fun a b => by rw [ew]; exact h1.all a b, h1.fault⟩
        · show s.step1.sent ++ [bundle x] = _
          rw [h1.sent]; simp
        · intro y hy
          apply h1.full y
          simpa using hy
        · intro m hm; exact nomatch hm
      obtain ⟨more, m1, m2, m3, m4, m5, m6, m7, m8⟩ := ih (by simpa using hl) h2
      refine ⟨.step1 :: .step2 (fun _ => 0) :: more, m1, ⟨.inr hsame.2.2.2.2, .inr ?_, m2⟩, m3, m4, ?_, ?_, ?_, ?_⟩
      · show (s.step1.step2 _).outOverruns = s.step1.outOverruns
        rw [e2]
      · show ((s.step1.step2 _).run c more).taken = _
        rw [m5, e2]; exact hsame.2.1
      · show ((s.step1.step2 _).run c more).incoming = _
        rw [m6, e2]; exact hsame.2.2.1
      · show ((s.step1.step2 _).run c more).inOverruns = _
        rw [m7, e2]; exact hsame.2.2.2.1
      · show ((s.step1.step2 _).run c more).outOverruns = _
        rw [m8, e2]; exact hsame.2.2.2.2

theorem handle_same (c : Cfg) (s : Send) (h : s.outgoing.length < c.cap) :
    (s.handle c).taken = none ∧ (s.handle c).incoming = s.incoming ∧ (s.handle c).inOverruns = s.inOverruns ∧ (s.handle c).outOverruns = s.outOverruns := by
  unfold Send.handle
  cases ht : s.taken with
  | none => exact ⟨ht, rfl, rfl, rfl⟩
  | some p =>
    simp only
    split
    · exact ⟨rfl, rfl, rfl, rfl⟩
    · unfold Send.pushFrame
      simp only
      split
      · unfold Send.pushBundle
        simp only
        split
        · exact ⟨rfl, rfl, rfl, rfl⟩
        · refine ⟨rfl, rfl, rfl, ?_⟩
          show (if c.cap ≤ s.outgoing.length then _ else _) = _
          rw [if_neg (by omega)]
      · exact ⟨rfl, rfl, rfl, rfl⟩
    · exact ⟨rfl, rfl, rfl, rfl⟩

/-- Everything is processed and goes out. -/
theorem drain_all (c : Cfg) (hp : c.perBundle < 2 ^ 16) (hcap : 1 ≤ c.cap) : ∀ (n : Nat) {s : Send} {g : List Bytes} {sg og : List (List Bytes)}
    {grp : List Bytes}, (∀ p ∈ g, p.length < 2 ^ 32) → s.incoming.length = n → Inv c s g sg og grp →
    ∃ more, given more = [] ∧ Calm c s more ∧ (s.run c more).incoming = [] ∧ (s.run c more).taken = none ∧ (s.run c more).outgoing = [] ∧
      (s.run c more).inOverruns = s.inOverruns ∧ (s.run c more).outOverruns = s.outOverruns := by
  intro n
  induction n with
  | zero =>
    intro s g sg og grp hg hl h
    have hin : s.incoming = [] := List.eq_nil_of_length_eq_zero hl
    obtain ⟨m1, a1, a2, ⟨sg1, a3⟩, a4, a5, a6, a7, a8⟩ := drain_out c _ rfl h
    have ho1 : (s.run c m1).outgoing = [] := a3.outgoing
    have hs := handle_same c (s.run c m1) (by rw [ho1]; exact hcap)
    obtain ⟨og2, grp2, b3⟩ := inv_handle hp hg a3 (.inl a4)
    obtain ⟨m2, b1, b2, ⟨sg3, c3⟩, c4, c5, c6, c7, c8⟩ := drain_out c _ rfl b3
    have er : s.run c (m1 ++ .handle :: m2) = ((s.run c m1).handle c).run c m2 := run_append c s m1 _
    refine ⟨m1 ++ .handle :: m2, ?_, ?_, ?_, ?_, ?_, ?_, ?_⟩
    · rw [given_append, a1]; exact b1
    · rw [calm_append]; exact ⟨a2, .inl a4, b2⟩
    · rw [er, c6, hs.2.1, a6, hin]
    · rw [er, c5, hs.1]
    · rw [er]; exact c3.outgoing
    · rw [er, c7, hs.2.2.1, a7]
    · rw [er, c8, hs.2.2.2, a8]
  | succ n ih =>
    intro s g sg og grp hg hl h
    obtain ⟨m1, a1, a2, ⟨sg1, a3⟩, a4, a5, a6, a7, a8⟩ := drain_out c _ rfl h
    have ho1 : (s.run c m1).outgoing = [] := a3.outgoing
    have hs := handle_same c (s.run c m1) (by rw [ho1]; exact hcap)
    obtain ⟨og2, grp2, b3⟩ := inv_handle hp hg a3 (.inl a4)
    have b4 := inv_take b3
    generalize hs1 : (s.run c m1).handle c = s1 at hs b3 b4
    have htake : s1.take.incoming.length = n ∧ s1.take.inOverruns = s1.inOverruns ∧ s1.take.outOverruns = s1.outOverruns := by
      unfold Send.take
      rw [hs.1]
      cases hi : s1.incoming with
      | nil => rw [hs.2.1, a6] at hi; rw [hi] at hl; simp at hl
      | cons p q =>
        refine ⟨?_, rfl, rfl⟩
        rw [← a6, ← hs.2.1, hi] at hl
        simpa using hl
    obtain ⟨m2, d1, d2, d3, d4, d5, d6, d7⟩ := ih hg htake.1 b4
    have er : s.run c (m1 ++ .handle :: .take :: m2) = s1.take.run c m2 := by
      rw [← hs1]; exact run_append c s m1 _
    refine ⟨m1 ++ .handle :: .take :: m2, ?_, ?_, ?_, ?_, ?_, ?_, ?_⟩
    · rw [given_append, a1]; exact d1
    · rw [calm_append]
      refine ⟨a2, .inl a4, .inr ?_, ?_⟩
      · show ((s.run c m1).handle c).take.outOverruns = ((s.run c m1).handle c).outOverruns
        rw [hs1]; exact htake.2.2
      · show Calm c ((s.run c m1).handle c).take m2
        rw [hs1]; exact d2
    · rw [er, d3]
    · rw [er, d4]
    · rw [er, d5]
    · rw [er, d6, htake.2.1, hs.2.2.1, a7]
    · rw [er, d7, htake.2.2, hs.2.2.2, a8]

end Hdtn.Stream
