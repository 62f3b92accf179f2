import Verif.Stcp.Lemmas

/-!
The sending side.
-/

namespace Hdtn.Stcp

open Spec

theorem bundles_append (l l' : List Item) : bundles (l ++ l') = bundles l ++ bundles l' := by
  induction l with
  | nil => rfl
  | cons i l ih => cases i <;> simp [bundles, ih]

theorem flatMap_failNote (l : List Item) :
    l.flatMap Item.failNote = (bundles l).flatMap (fun e => report (e, .failed)) := by
  induction l with
  | nil => rfl
  | cons i l ih =>
    cases i with
    | keepAlive => rw [List.flatMap_cons, ih]; rfl
    | bundle b tag => rw [List.flatMap_cons, ih]; rfl

/-- How the bundles taken, the notes and the bytes written hang together.  `before` are the bundles
that left the queue before the present connection, `done` the items written to it, `here` the
bundles among them, `lost` those that failed on it. -/
structure SourceInv (all : List (Bytes × Nat)) (s : Source)
    (before here : List ((Bytes × Nat) × Fate)) (done : List Item) (lost : List (Bytes × Nat)) :
    Prop where
  whole : all = before.map (·.1) ++ here.map (·.1) ++ lost ++ bundles s.queue
  these : here.map (·.1) = bundles done
  fates : ∀ x ∈ here, x.2 ≠ .failed
  notes : s.notes = before.flatMap report ++ here.flatMap report ++
    lost.flatMap (fun e => report (e, .failed))
  good : s.err = false → lost = [] ∧ s.wire = done.flatMap Item.bytes
  bad : s.err = true → s.queue = [] ∧ ∃ (i : Item) (k : Nat),
    s.wire = done.flatMap Item.bytes ++ i.bytes.take k ∧
    (i = .keepAlive ∨ ∃ e l, lost = e :: l ∧ i = .bundle e.1 e.2)

/-- There are such lists. -/
def Accounted (all : List (Bytes × Nat)) (s : Source) : Prop :=
  ∃ before here done lost, SourceInv all s before here done lost

theorem inv_congr {all : List (Bytes × Nat)} {s t : Source} (h : Accounted all s)
    (h1 : t.err = s.err) (h2 : t.queue = s.queue) (h3 : t.notes = s.notes) (h4 : t.wire = s.wire) :
    Accounted all t := by
  obtain ⟨b, h, d, l, a1, a2, a3, a4, a5, a6⟩ := h
  exact ⟨b, h, d, l, by rw [h2]; exact a1, a2, a3, by rw [h3]; exact a4,
    by rw [h1, h4]; exact a5, by rw [h1, h2, h4]; exact a6⟩

theorem enqueue_inv {all : List (Bytes × Nat)} {s : Source} (i : Item) (h : Accounted all s) :
    Accounted (all ++ bundles [i]) (s.enqueue i) := by
  obtain ⟨b, h, d, l, a1, a2, a3, a4, a5, a6⟩ := h
  unfold Source.enqueue
  split
  · rename_i he
    obtain ⟨hq, j, k, hw, hj⟩ := a6 he
    refine ⟨b, h, d, l ++ bundles [i], ?_, a2, a3, ?_, ?_, fun _ => ⟨hq, j, k, hw, ?_⟩⟩
    · rw [a1, hq]; simp [bundles]
    · have := flatMap_failNote [i]
      rw [List.flatMap_cons, List.flatMap_nil, List.append_nil] at this
      simp only [a4, this, List.flatMap_append, List.append_assoc]
    · intro hf
      rw [he] at hf
      cases hf
    · rcases hj with hj | ⟨e, l', hl, hj⟩
      · exact .inl hj
      · exact .inr ⟨e, l' ++ bundles [i], by rw [hl]; rfl, hj⟩
  · rename_i he
    refine ⟨b, h, d, l, ?_, a2, a3, a4, a5, fun hf => absurd hf he⟩
    simp only [a1, bundles_append, List.append_assoc]

theorem written_inv {all : List (Bytes × Nat)} {s : Source} (h : Accounted all s) :
    Accounted all s.written := by
  unfold Source.written
  split
  · exact h
  · rename_i i rest hq
    obtain ⟨b, h, d, l, a1, a2, a3, a4, a5, a6⟩ := h
    have he : s.err = false := by
      rcases Bool.eq_false_or_eq_true s.err with he | he
      · rw [(a6 he).1] at hq; cases hq
      · exact he
    obtain ⟨hl, hw⟩ := a5 he
    subst hl
    cases i with
    | keepAlive =>
      refine ⟨b, h, d ++ [.keepAlive], [], ?_, ?_, a3, a4, fun _ => ⟨rfl, ?_⟩, fun hf => ?_⟩
      · rw [a1, hq]; rfl
      · rw [a2, bundles_append]; simp [bundles]
      · simp [Source.acked, hw]
      · simp only [Source.acked] at hf
        rw [he] at hf; cases hf
    | bundle c tag =>
      have key : ∀ (f : Fate) (ta : List Nat) (t : Source), f ≠ .failed →
          t = { s with queue := rest, wire := s.wire ++ (Item.bundle c tag).bytes, toAck := ta,
                       notes := s.notes ++ report ((c, tag), f) } → Accounted all t := by
        intro f ta t hf ht
        subst ht
        refine ⟨b, h ++ [((c, tag), f)], d ++ [.bundle c tag], [], ?_, ?_, ?_, ?_,
          fun _ => ⟨rfl, ?_⟩, fun hf => ?_⟩
        · rw [a1, hq]; simp [bundles]
        · rw [List.map_append, a2, bundles_append]; simp [bundles]
        · intro x hx
          rcases List.mem_append.mp hx with hx | hx
          · exact a3 x hx
          · rw [List.mem_singleton.mp hx]; exact hf
        · simp [a4]
        · simp [hw]
        · simp only at hf
          rw [he] at hf; cases hf
      simp only [Source.acked]
      split
      · exact key .silent s.toAck _ (by simp) (by simp [report])
      · rename_i n rest' hta
        split
        · exact key .sent rest' _ (by simp) (by simp [report])
        · exact key .silent s.toAck _ (by simp) (by simp [report])

theorem broke_inv {all : List (Bytes × Nat)} {s : Source} (k : Nat) (h : Accounted all s) :
    Accounted all (s.broke k) := by
  unfold Source.broke
  split
  · exact h
  · rename_i i rest hq
    obtain ⟨b, h, d, l, a1, a2, a3, a4, a5, a6⟩ := h
    have he : s.err = false := by
      rcases Bool.eq_false_or_eq_true s.err with he | he
      · rw [(a6 he).1] at hq; cases hq
      · exact he
    obtain ⟨hl, hw⟩ := a5 he
    subst hl
    refine ⟨b, h, d, bundles (i :: rest), ?_, a2, a3, ?_, fun hf => (by cases hf),
      fun _ => ⟨rfl, i, k, ?_, ?_⟩⟩
    · rw [a1, hq]; simp [bundles]
    · simp only [flatMap_failNote]
      rw [a4]; simp
    · simp only [hw]
    · cases i with
      | keepAlive => exact .inl rfl
      | bundle c tag => exact .inr ⟨(c, tag), bundles rest, rfl, rfl⟩

theorem report_failed (l : List (Bytes × Nat)) :
    (l.map (fun e => (e, Fate.failed))).flatMap report =
      l.flatMap (fun e => report (e, .failed)) := by
  rw [List.flatMap_map]

theorem connect_inv {all : List (Bytes × Nat)} {s : Source} (hq : s.queue = [])
    (h : Accounted all s) : Accounted all s.connect := by
  obtain ⟨b, h, d, l, a1, a2, a3, a4, a5, a6⟩ := h
  refine ⟨b ++ h ++ l.map (fun e => (e, Fate.failed)), [], [], [], ?_, rfl, by simp, ?_,
    fun _ => ⟨rfl, rfl⟩, fun hf => by cases hf⟩
  · rw [a1, hq]
    simp only [bundles, Source.connect, List.map_append, List.append_nil, List.map_map, List.map_nil]
    congr 1
    exact (List.map_id l).symm
  · simp [Source.connect, a4, report_failed]

theorem source_step {m : Nat} {all : List (Bytes × Nat)} {s : Source} (e : SourceEvent)
    (h : Accounted all s) : Accounted (all ++ taken m s [e]) (s.step m e) := by
  cases e with
  | forward b tag =>
    simp only [taken, Source.step]
    by_cases hf : (s.forward m b tag).2 = true
    · rw [if_pos hf]
      unfold Source.forward at hf ⊢
      split at hf
      · cases hf
      · rename_i h1
        split at hf
        · cases hf
        · rename_i h2
          rw [if_neg h1, if_neg h2]
          refine enqueue_inv (.bundle b tag) ?_
          exact inv_congr h rfl rfl rfl rfl
    · rw [if_neg hf, List.append_nil]
      unfold Source.forward at hf ⊢
      split
      · exact h
      · rename_i h1
        split
        · exact h
        · rename_i h2
          rw [if_neg h1, if_neg h2] at hf
          exact absurd rfl hf
  | timer =>
    simp only [taken, List.append_nil, Source.step]
    split
    · unfold Source.timer
      split
      · exact inv_congr h rfl rfl rfl rfl
      · have := enqueue_inv .keepAlive h
        rwa [show bundles [Item.keepAlive] = [] from rfl, List.append_nil] at this
    · exact h
  | written =>
    simp only [taken, List.append_nil, Source.step]
    split
    · exact written_inv h
    · exact h
  | broke k =>
    simp only [taken, List.append_nil, Source.step]
    exact broke_inv k h
  | shutdown =>
    simp only [taken, List.append_nil, Source.step]
    exact inv_congr h rfl rfl rfl rfl
  | connect =>
    simp only [taken, List.append_nil, Source.step]
    split
    · rename_i hc
      exact connect_inv hc.2 h
    · exact h

theorem taken_cons (m : Nat) (s : Source) (e : SourceEvent) (es : List SourceEvent) :
    taken m s (e :: es) = taken m s [e] ++ taken m (s.step m e) es := by
  cases e with
  | forward b tag =>
    simp only [taken]
    split <;> simp
  | _ => simp [taken]

theorem source_run {m : Nat} (es : List SourceEvent) : ∀ {all : List (Bytes × Nat)} {s : Source},
    Accounted all s → Accounted (all ++ taken m s es) (s.run m es) := by
  induction es with
  | nil => intro all s h; rw [show taken m s [] = [] from rfl, List.append_nil]; exact h
  | cons e es ih =>
    intro all s h
    rw [taken_cons, ← List.append_assoc]
    exact ih (source_step e h)

theorem source_init : Accounted [] Source.init :=
  ⟨[], [], [], [], rfl, rfl, by simp, rfl, fun _ => ⟨rfl, rfl⟩, fun h => by cases h⟩

/-! ### What the items look like on the wire -/

theorem header_length (n : Nat) : (header n).length = 4 := by unfold header; exact toBe_length _ _

theorem header_value {n : Nat} (h : n < 2 ^ 32) : beValue (header n) = n := by
  unfold header
  rw [beValue_toBe]
  have : U32 = 2 ^ 32 := rfl
  have : (256 : Nat) ^ 4 = 2 ^ 32 := by norm_num
  rw [this, Nat.mod_mod]
  exact Nat.mod_eq_of_lt h

theorem units_bundle {b : Bytes} (tag : Nat) (h : b.length < 2 ^ 32) :
    Units (nonempty [(b, tag)]) (Item.bundle b tag).bytes := by
  by_cases hb : b = []
  · subst hb
    exact .keepAlive .nil
  · have : nonempty [(b, tag)] = [b] := by simp [nonempty, hb]
    rw [this]
    exact units_single hb (header_length _) (header_value h)

theorem units_items (l : List Item) (h : ∀ e ∈ bundles l, e.1.length < 2 ^ 32) :
    Units (nonempty (bundles l)) (l.flatMap Item.bytes) := by
  induction l with
  | nil => exact .nil
  | cons i l ih =>
    rw [List.flatMap_cons]
    cases i with
    | keepAlive => exact .keepAlive (ih h)
    | bundle b tag =>
      have hb := h (b, tag) (List.mem_cons_self ..)
      have := units_append (units_bundle tag hb) (ih fun e he => h e (List.mem_cons_of_mem _ he))
      have e : nonempty (bundles (.bundle b tag :: l)) = nonempty [(b, tag)] ++ nonempty (bundles l) := by
        simp only [nonempty, bundles, ← List.filter_append, ← List.map_append]
        rfl
      rw [e]; exact this

/-! ### Histories in which no write fails -/

/-- Everything that was taken is reported sent or still queued, with its size waiting. -/
structure SmoothInv (all : List (Bytes × Nat)) (s : Source) (sent : List (Bytes × Nat)) : Prop where
  whole : all = sent ++ bundles s.queue
  notes : s.notes = sent.map (fun e => .sent e.2)
  err : s.err = false
  sizes : s.toAck = (bundles s.queue).map (fun e => e.1.length + 4)

theorem smooth_step {m : Nat} {all : List (Bytes × Nat)} {s : Source} {sent : List (Bytes × Nat)}
    (e : SourceEvent) (he : ∀ k, e ≠ .broke k)
    (hs : ∀ x ∈ taken m s [e], x.1.length + 4 < 2 ^ 32)
    (h : SmoothInv all s sent) : ∃ sent', SmoothInv (all ++ taken m s [e]) (s.step m e) sent' := by
  obtain ⟨h1, h2, h3, h4⟩ := h
  cases e with
  | forward b tag =>
    simp only [taken, Source.step] at hs ⊢
    by_cases hf : (s.forward m b tag).2 = true
    · rw [if_pos hf] at hs ⊢
      have hb := hs (b, tag) (List.mem_singleton.mpr rfl)
      unfold Source.forward at hf ⊢
      split at hf
      · cases hf
      · rename_i a1
        split at hf
        · cases hf
        · rename_i a2
          rw [if_neg a1, if_neg a2]
          refine ⟨sent, ?_⟩
          simp only [Source.enqueue, h3, Bool.false_eq_true, if_false]
          refine ⟨?_, h2, rfl, ?_⟩
          · simp [h1, bundles_append, bundles]
          · have hm : (b.length + 4) % U32 = b.length + 4 := Nat.mod_eq_of_lt hb
            simp only [h4, hm, bundles_append, List.map_append]
            rfl
    · rw [if_neg hf, List.append_nil]
      refine ⟨sent, ?_⟩
      unfold Source.forward at hf ⊢
      split
      · exact ⟨h1, h2, h3, h4⟩
      · rename_i a1
        split
        · exact ⟨h1, h2, h3, h4⟩
        · rename_i a2
          rw [if_neg a1, if_neg a2] at hf
          exact absurd rfl hf
  | timer =>
    simp only [taken, List.append_nil, Source.step]
    refine ⟨sent, ?_⟩
    split
    · unfold Source.timer
      split
      · exact ⟨h1, h2, h3, h4⟩
      · simp only [Source.enqueue, h3, Bool.false_eq_true, if_false]
        refine ⟨?_, h2, rfl, ?_⟩
        · simp [h1, bundles_append, bundles]
        · simp [h4, bundles_append, bundles]
    · exact ⟨h1, h2, h3, h4⟩
  | written =>
    simp only [taken, List.append_nil, Source.step]
    split
    · unfold Source.written
      split
      · exact ⟨sent, h1, h2, h3, h4⟩
      · rename_i i rest hq
        cases i with
        | keepAlive =>
          refine ⟨sent, ?_⟩
          rw [hq] at h1 h4
          exact ⟨h1, h2, h3, h4⟩
        | bundle b tag =>
          rw [hq] at h1 h4
          simp only [bundles, List.map_cons] at h4
          refine ⟨sent ++ [(b, tag)], ?_⟩
          have hl : b.length + 4 = (header b.length).length + b.length := by
            rw [header_length]; omega
          simp only [Source.acked, h4]
          rw [if_pos hl]
          refine ⟨?_, ?_, h3, rfl⟩
          · rw [h1]; simp [bundles]
          · simp [h2]
    · exact ⟨sent, h1, h2, h3, h4⟩
  | broke k => exact absurd rfl (he k)
  | shutdown =>
    simp only [taken, List.append_nil, Source.step]
    exact ⟨sent, h1, h2, h3, h4⟩
  | connect =>
    simp only [taken, List.append_nil, Source.step]
    split
    · rename_i hc
      rw [hc.2] at h1 h4
      exact ⟨sent, h1, h2, rfl, h4⟩
    · exact ⟨sent, h1, h2, h3, h4⟩

theorem smooth_run {m : Nat} (es : List SourceEvent) : ∀ {all : List (Bytes × Nat)} {s : Source}
    {sent : List (Bytes × Nat)}, NoFailure es →
    (∀ x ∈ taken m s es, x.1.length + 4 < 2 ^ 32) → SmoothInv all s sent →
    ∃ sent', SmoothInv (all ++ taken m s es) (s.run m es) sent' := by
  induction es with
  | nil =>
    intro all s sent _ _ h
    rw [show taken m s [] = [] from rfl, List.append_nil]
    exact ⟨sent, h⟩
  | cons e es ih =>
    intro all s sent hn hs h
    rw [taken_cons] at hs ⊢
    rw [← List.append_assoc]
    obtain ⟨sent', h'⟩ := smooth_step e (fun k hk => hn k (by rw [hk]; exact List.mem_cons_self ..))
      (fun x hx => hs x (List.mem_append_left _ hx)) h
    exact ih (fun k hk => hn k (List.mem_cons_of_mem _ hk))
      (fun x hx => hs x (List.mem_append_right _ hx)) h'

/-! ### Sizes left over from a failed connection -/

/-- The source waits for the acknowledgement of `n` bytes, and no item that may be written has this
size. -/
structure Stuck (n : Nat) (old : List Nat) (sents : List Note) (s : Source) (added : Nat) : Prop where
  wait : ∃ l, s.toAck = n :: (old ++ l) ∧ l.length = added
  none : ∀ e ∈ bundles s.queue, e.1.length + 4 ≠ n
  sent : ∀ t, Note.sent t ∈ s.notes → Note.sent t ∈ sents

theorem failNote_not_sent (i : Item) (t : Nat) : Note.sent t ∉ i.failNote := by
  cases i with
  | keepAlive => simp [Item.failNote]
  | bundle b tag =>
    simp only [Item.failNote]
    split <;> simp

theorem stuck_enqueue {n : Nat} {old : List Nat} {sents : List Note} {s : Source} {a : Nat} (i : Item)
    (hi : ∀ e ∈ bundles [i], e.1.length + 4 ≠ n) (h : Stuck n old sents s a) :
    Stuck n old sents (s.enqueue i) a := by
  obtain ⟨h1, h2, h3⟩ := h
  unfold Source.enqueue
  split
  · refine ⟨h1, h2, fun t ht => ?_⟩
    rcases List.mem_append.mp ht with ht | ht
    · exact h3 t ht
    · exact absurd ht (failNote_not_sent i t)
  · refine ⟨h1, fun e he => ?_, h3⟩
    simp only [bundles_append] at he
    rcases List.mem_append.mp he with he | he
    · exact h2 e he
    · exact hi e he

theorem stuck_step {m n : Nat} {old : List Nat} {sents : List Note} {s : Source} {a : Nat}
    (e : SourceEvent) (he : ∀ b tag, e = .forward b tag → b.length + 4 ≠ n)
    (h : Stuck n old sents s a) :
    Stuck n old sents (s.step m e) (a + (taken m s [e]).length) ∧
      (taken m s [e] ≠ [] → a + 1 + old.length + 1 + 1 ≤ m) := by
  cases e with
  | forward b tag =>
    simp only [taken, Source.step]
    have hb := he b tag rfl
    by_cases hf : (s.forward m b tag).2 = true
    · rw [if_pos hf]
      unfold Source.forward at hf ⊢
      split at hf
      · cases hf
      · rename_i a1
        split at hf
        · cases hf
        · rename_i a2
          rw [if_neg a1, if_neg a2]
          obtain ⟨⟨l, e1, e2⟩, h2, h3⟩ := h
          have hlen := congrArg List.length e1
          simp only [List.length_cons, List.length_append] at hlen
          refine ⟨stuck_enqueue _ ?_ ⟨⟨l ++ [(b.length + 4) % U32], ?_, ?_⟩, h2, h3⟩, fun _ => by omega⟩
          · intro e hm
            rw [List.mem_singleton.mp hm]
            exact hb
          · simp [e1]
          · simp [e2]
    · rw [if_neg hf]
      refine ⟨?_, fun h => absurd rfl h⟩
      unfold Source.forward at hf ⊢
      split
      · exact h
      · rename_i a1
        split
        · exact h
        · rename_i a2
          rw [if_neg a1, if_neg a2] at hf
          exact absurd rfl hf
  | timer =>
    refine ⟨?_, fun h => absurd rfl h⟩
    simp only [taken, List.length_nil, Nat.add_zero, Source.step]
    split
    · unfold Source.timer
      split
      · exact ⟨h.wait, h.none, h.sent⟩
      · exact stuck_enqueue _ (fun e he => by cases he) h
    · exact h
  | written =>
    refine ⟨?_, fun h => absurd rfl h⟩
    simp only [taken, List.length_nil, Nat.add_zero, Source.step]
    split
    · unfold Source.written
      split
      · exact h
      · rename_i i rest hq
        obtain ⟨h1, h2, h3⟩ := h
        rw [hq] at h2
        cases i with
        | keepAlive => exact ⟨h1, h2, h3⟩
        | bundle b tag =>
          have hb := h2 (b, tag) (List.mem_cons_self ..)
          obtain ⟨l, e1, e2⟩ := h1
          have hn : n ≠ (header b.length).length + b.length := by
            rw [header_length]
            simp only at hb
            omega
          simp only [Source.acked, e1]
          rw [if_neg hn]
          exact ⟨⟨l, rfl, e2⟩, fun e he => h2 e (List.mem_cons_of_mem _ he), h3⟩
    · exact h
  | broke k =>
    refine ⟨?_, fun h => absurd rfl h⟩
    simp only [taken, List.length_nil, Nat.add_zero, Source.step]
    unfold Source.broke
    split
    · exact h
    · refine ⟨h.wait, fun e he => (by cases he), fun t ht => ?_⟩
      rcases List.mem_append.mp ht with ht | ht
      · exact h.sent t ht
      · obtain ⟨i, _, hi⟩ := List.mem_flatMap.mp ht
        exact absurd hi (failNote_not_sent i t)
  | shutdown => exact ⟨⟨h.wait, h.none, h.sent⟩, fun h => absurd rfl h⟩
  | connect =>
    refine ⟨?_, fun h => absurd rfl h⟩
    simp only [taken, List.length_nil, Nat.add_zero, Source.step]
    split
    · exact ⟨h.wait, fun e he => (by cases he), h.sent⟩
    · exact h

theorem stuck_run {m n : Nat} {old : List Nat} {sents : List Note} (es : List SourceEvent) :
    ∀ {s : Source} {a : Nat}, (∀ b tag, .forward b tag ∈ es → b.length + 4 ≠ n) →
    a + old.length + 2 ≤ max m (old.length + 2) →
    Stuck n old sents s a → Stuck n old sents (s.run m es) (a + (taken m s es).length) ∧
      a + (taken m s es).length + old.length + 2 ≤ max m (old.length + 2) := by
  induction es with
  | nil => intro s a _ hm h; exact ⟨h, hm⟩
  | cons e es ih =>
    intro s a hs hm h
    obtain ⟨h1, h2⟩ := stuck_step (m := m) e (fun b tag hb => hs b tag (by rw [hb]; exact List.mem_cons_self ..)) h
    rw [taken_cons, List.length_append, ← Nat.add_assoc]
    refine ih (fun b tag hb => hs b tag (List.mem_cons_of_mem _ hb)) ?_ h1
    by_cases ht : taken m s [e] = []
    · rw [ht]; exact hm
    · have := h2 ht
      have hl : (taken m s [e]).length ≤ 1 := by
        cases e <;> simp only [taken] <;> try simp
        split <;> simp
      omega

end Hdtn.Stcp
