import Verif.Storage.Restart

/-!
Calls come to an end.
-/

namespace Hdtn.Storage

open Hdtn.Catalog Hdtn.HashMap16

/-- The work in the queues of the first `n` disks. -/
def work (q : Nat → List Job) (n : Nat) : Nat := ((List.range n).map fun d => (q d).length).sum

theorem work_update (q q' : Nat → List Job) (d n : Nat) (h : ∀ x, x ≠ d → q' x = q x) :
    work q' n + (if d < n then (q d).length else 0) = work q n + (if d < n then (q' d).length else 0) := by
  induction n with
  | zero => simp [work]
  | succ n ih =>
    have e : ∀ q : Nat → List Job, work q (n + 1) = work q n + (q n).length := by
      intro q; simp [work, List.range_succ]
    rw [e, e]
    by_cases hd : d = n
    · subst hd
      simp only [Nat.lt_irrefl, if_false] at ih
      simp only [Nat.lt_succ_self, if_true]
      omega
    · rw [h n (fun hh => hd hh.symm)]
      by_cases hl : d < n
      · rw [if_pos hl, if_pos hl] at ih
        rw [if_pos (by omega), if_pos (by omega)]; omega
      · rw [if_neg hl, if_neg hl] at ih
        rw [if_neg (by omega), if_neg (by omega)]; omega

/-- What is left to do of the call going on. -/
def Main.left (m : Main) (ss : Session) : Nat :=
  match m with
  | .idle => 0
  | .pushing e _ _ _ i => 2 * (e.segments.length - i)
  | .reading _ _ e _ _ _ _ => 2 * (e.segments.length - ss.nextCache) + (e.segments.length - ss.next)

def State.left (cfg : Cfg) (s : State) : Nat := work s.queues cfg.disks + s.main.left s.sess

theorem work_enqueue {cfg : Cfg} (hv : cfg.Valid) {s s' : State} {seg : Nat} {j : Job}
    (hs : s.enqueue cfg seg j = some s') : work s'.queues cfg.disks = work s.queues cfg.disks + 1 ∧
      s'.main = s.main ∧ s'.sess = s.sess := by
  have hq := enqueue_queues hs
  have h1 := work_update s.queues s'.queues (seg % cfg.disks) cfg.disks (by
    intro x hx; rw [hq]; simp [hx])
  have hlt : seg % cfg.disks < cfg.disks := Nat.mod_lt _ hv.disks
  rw [if_pos hlt, if_pos hlt, hq] at h1
  simp only [if_true, List.length_append, List.length_singleton] at h1
  refine ⟨by rw [hq]; omega, ?_⟩
  unfold State.enqueue at hs
  split at hs
  · simp only [Option.some.injEq] at hs
    subst hs; exact ⟨rfl, rfl⟩
  · simp at hs

/-- What an inner step does to the call going on. -/
theorem inner_step {cfg : Cfg} (hv : cfg.Valid) {s s' : State} {outs o : List Out} {recs : List Rec}
    {leaked : List Nat} {H : Nat} (h : Inv cfg s outs recs leaked H) (a : Act) (ha : Inner a)
    (hs : step cfg s a = some (s', o)) :
    s'.left cfg < s.left cfg ∧
    ((o = [] ∧ s'.main.Answer = s.main.Answer ∧ (s'.main = .idle ↔ s.main = .idle)) ∨
      ∃ x, o = [x] ∧ s'.main = .idle ∧ s.main.Answer x) := by
  cases a with
  | tick d =>
    simp only [step, Option.map_eq_some_iff, Prod.mk.injEq] at hs
    obtain ⟨s1, h1, rfl, rfl⟩ := hs
    obtain ⟨_, _, _, _, e1, e2, _, e3, e4⟩ := tick_disk h.disk h1
    have hlen : (s.queues d).length = (s1.queues d).length + 1 := by
      rcases e3 with ⟨seg, b, hq, _⟩ | ⟨⟨seg, slot, hq, _⟩, _⟩ <;> rw [hq] <;> rfl
    have hdl : d < cfg.disks := by
      cases hq : s.queues d with
      | nil => rw [hq] at hlen; simp at hlen
      | cons j q =>
        have := (h.disk.jobs d j (by rw [hq]; simp)).2
        have := Nat.mod_lt j.seg hv.disks
        omega
    have hw := work_update s.queues s1.queues d cfg.disks e4
    rw [if_pos hdl, if_pos hdl] at hw
    refine ⟨by unfold State.left; rw [e1, e2]; omega, Or.inl ⟨rfl, by rw [e2], by rw [e2]⟩⟩
  | push junk =>
    have hs' : push cfg s junk = some (s', o) := hs
    unfold push at hs'
    split at hs'
    · rename_i e p id data i hm
      split at hs'
      · simp at hs'
      · rename_i seg hseg
        have hi : i < e.segments.length := by
          rw [List.getElem?_eq_some_iff] at hseg; exact hseg.1
        simp only at hs'
        split at hs'
        · simp at hs'
        · split at hs'
          · simp at hs'
          · rename_i s1 henq
            obtain ⟨hw, e1, e2⟩ := work_enqueue hv henq
            have hl : s.left cfg = work s.queues cfg.disks + 2 * (e.segments.length - i) := by
              unfold State.left; rw [hm]; rfl
            split at hs'
            · split at hs'
              · simp at hs'
              all_goals
                simp only [Option.some.injEq, Prod.mk.injEq] at hs'
                obtain ⟨rfl, rfl⟩ := hs'
                refine ⟨?_, Or.inr ⟨_, rfl, rfl, ?_⟩⟩
                · rw [hl]
                  show work s1.queues cfg.disks + 0 < _
                  omega
                · rw [hm]; simp [Main.Answer]
            · simp only [Option.some.injEq, Prod.mk.injEq] at hs'
              obtain ⟨rfl, rfl⟩ := hs'
              refine ⟨?_, Or.inl ⟨rfl, ?_, by rw [hm]; simp⟩⟩
              · rw [hl]
                show work s1.queues cfg.disks + 2 * (e.segments.length - (i + 1)) < _
                omega
              · rw [hm]; rfl
    · simp at hs'
  | cacheNext =>
    have hs' : cacheNext cfg s = some (s', o) := hs
    unfold cacheNext at hs'
    split at hs'
    · rename_i first id e count i buf got hm
      split at hs'
      · rename_i hah
        split at hs'
        · simp at hs'
        · rename_i seg hseg
          have hi : s.sess.nextCache < e.segments.length := by
            rw [List.getElem?_eq_some_iff] at hseg; exact hseg.1
          split at hs'
          · simp at hs'
          · rename_i s1 henq
            obtain ⟨hw, e1, e2⟩ := work_enqueue hv henq
            simp only [Option.some.injEq, Prod.mk.injEq] at hs'
            obtain ⟨rfl, rfl⟩ := hs'
            refine ⟨?_, Or.inl ⟨rfl, ?_, ?_⟩⟩
            · unfold State.left
              show work s1.queues cfg.disks + Main.left s1.main _ < _
              rw [e1, hm]
              simp only [Main.left]
              omega
            · show s1.main.Answer = _
              rw [e1]
            · show s1.main = _ ↔ _
              rw [e1]
      · simp at hs'
    · simp at hs'
  | consume =>
    have hs' : consume cfg s = some (s', o) := hs
    unfold consume at hs'
    split at hs'
    · rename_i first id e count i buf got hm
      split at hs'
      · simp at hs'
      · rename_i hg
        simp only [Bool.or_eq_true, decide_eq_true_eq, not_or, not_le] at hg
        simp only at hs'
        generalize (if (Header.read cfg (s.cache s.sess.readIdx)).next = cfg.last ∧ e.bundleSize % cfg.perSeg ≠ 0
          then e.bundleSize % cfg.perSeg else cfg.perSeg) = size at hs'
        split at hs'
        · simp at hs'
        · have hl : s.left cfg = work s.queues cfg.disks +
              (2 * (e.segments.length - s.sess.nextCache) + (e.segments.length - s.sess.next)) := by
            unfold State.left; rw [hm]; rfl
          split at hs'
          · simp only [Option.some.injEq, Prod.mk.injEq] at hs'
            obtain ⟨rfl, rfl⟩ := hs'
            refine ⟨?_, Or.inr ⟨_, rfl, rfl, ?_⟩⟩
            · rw [hl]
              show work s.queues cfg.disks + 0 < _
              omega
            · rw [hm]; cases first <;> simp [Main.Answer]
          · simp only [Option.some.injEq, Prod.mk.injEq] at hs'
            obtain ⟨rfl, rfl⟩ := hs'
            refine ⟨?_, Or.inl ⟨rfl, ?_, by rw [hm]; simp⟩⟩
            · rw [hl]
              show work s.queues cfg.disks +
                (2 * (e.segments.length - s.sess.nextCache) + (e.segments.length - (s.sess.next + 1))) < _
              omega
            · rw [hm]; cases first <;> rfl
    · simp at hs'
  | _ => exact absurd ha (by simp [Inner])

/-- A disk with work to do does it. -/
theorem tick_possible {cfg : Cfg} (hv : cfg.Valid) {s : State} {H : Nat} (h : DiskInv cfg s H) (d : Nat)
    (hq : s.queues d ≠ []) : ∃ s', tick cfg s d = some s' := by
  cases hj : s.queues d with
  | nil => exact absurd hj hq
  | cons j rest =>
    have h1 := (h.jobs d j (by rw [hj]; simp)).1
    have h2 := hv.max_lt_last
    unfold tick
    rw [hj]
    cases j with
    | write seg b =>
      have : ¬ seg = cfg.last := by
        have : seg < cfg.maxSegments := h1
        omega
      simp [this]
    | read seg slot =>
      have : ¬ seg = cfg.last := by
        have : seg < cfg.maxSegments := h1
        omega
      simp [this]

theorem enqueue_possible (cfg : Cfg) (s : State) (seg : Nat) :
    (∀ j, (s.enqueue cfg seg j).isSome = true) ∨ s.queues (seg % cfg.disks) ≠ [] := by
  by_cases h : (s.queues (seg % cfg.disks)).length < 29
  · exact Or.inl fun j => by unfold State.enqueue; rw [if_pos h]; rfl
  · right
    intro hh
    rw [hh] at h
    simp at h

/-- While a call is going on some inner step is possible. -/
theorem inner_possible {cfg : Cfg} (hv : cfg.Valid) {s : State} {outs : List Out} {recs : List Rec}
    {leaked : List Nat} {H : Nat} (h : Inv cfg s outs recs leaked H) (hm : s.main ≠ .idle) :
    ∃ a s' o, Inner a ∧ step cfg s a = some (s', o) := by
  have htick : ∀ d, s.queues d ≠ [] → ∃ a s' o, Inner a ∧ step cfg s a = some (s', o) := by
    intro d hd
    obtain ⟨s', hs⟩ := tick_possible hv h.disk d hd
    exact ⟨.tick d, s', [], trivial, by simp [step, hs]⟩
  have hmain := h.main
  unfold MainOk at hmain
  cases hmm : s.main with
  | idle => exact absurd hmm hm
  | pushing e p id data i =>
    rw [hmm] at hmain
    obtain ⟨hnr, hfresh, ps, mask, he, hok, hi, -⟩ := hmain
    have hlen : e.segments.length = cfg.segsFor data.length := hok.len
    have hseg : e.segments[i]? = some e.segments[i] := List.getElem?_eq_getElem hi
    rcases enqueue_possible cfg s e.segments[i] with hroom | hq
    · have hfit := chunk_fits hv data.length i (by rw [← hlen]; exact hi)
      rw [← hlen] at hfit
      have hres := hv.reserved_perSeg
      generalize hsz : chunkSize cfg data.length e.segments.length i = size at hfit
      have hpush : ∃ s' o, push cfg s (List.replicate (cfg.segSize - cfg.reserved - size) 0) = some (s', o) := by
        unfold push
        rw [hmm]
        simp only [hseg, hsz]
        rw [if_neg]
        · obtain ⟨s1, henq⟩ := Option.isSome_iff_exists.1 (hroom (.write e.segments[i]
            ((pushHeader cfg e id i).bytes cfg ++ List.take size (List.drop (i * cfg.perSeg) data) ++
              List.replicate (cfg.segSize - cfg.reserved - size) 0)))
          rw [henq]
          simp only
          have hcat1 : s1.cat = s.cat := by
            unfold State.enqueue at henq
            split at henq
            · simp only [Option.some.injEq] at henq; subst henq; rfl
            · simp at henq
          split
          · have hst := store_spec s1.cat (by
              obtain ⟨ids, hc⟩ := inv_reachable _ h.reach
              rw [hcat1]; exact hc.good) p data.length ps e.segments mask id false
              (by rw [hcat1]; exact hfresh) hok.prio
            rw [← he] at hst
            simp only [Bool.false_eq_true, if_false] at hst
            rcases hst with ⟨hst, _⟩ | ⟨_, c', hst, _⟩ <;> rw [hst] <;> exact ⟨_, _, rfl⟩
          · exact ⟨_, _, rfl⟩
        · rw [not_or, not_not]
          refine ⟨by omega, ?_⟩
          simp only [List.length_append, bytes_length, List.length_take, List.length_drop,
            List.length_replicate]
          omega
      obtain ⟨s', o, hs⟩ := hpush
      exact ⟨.push _, s', o, trivial, hs⟩
    · exact htick _ hq
  | reading first id e count i buf got =>
    rw [hmm] at hmain
    obtain ⟨r, hr, b1, b2, b3, b4, b5, b6, b7, b8, b9, hw⟩ := hmain
    have hes : e.segments = r.segs := by rw [b2]; rfl
    have hbs : e.bundleSize = r.data.length := by rw [b2]; rfl
    have hok := h.ok r hr
    have hw1 := hw.le
    have hw2 := hw.fifty
    have hw3 := hw.len
    by_cases hah : ahead s.sess e = true
    · have hc : s.sess.nextCache < e.segments.length := by
        simp only [ahead, Bool.and_eq_true, decide_eq_true_eq] at hah; exact hah.2
      have hseg : e.segments[s.sess.nextCache]? = some e.segments[s.sess.nextCache] := List.getElem?_eq_getElem hc
      rcases enqueue_possible cfg s e.segments[s.sess.nextCache] with hroom | hq
      · obtain ⟨s1, henq⟩ := Option.isSome_iff_exists.1 (hroom
          (.read e.segments[s.sess.nextCache] s.sess.writeIdx))
        refine ⟨.cacheNext, { s1 with
            ready := fun k => if k = s.sess.writeIdx then false else s.ready k
            sess := { s.sess with nextCache := s.sess.nextCache + 1
                                  writeIdx := (s.sess.writeIdx + 1) % 50 } }, [], trivial, ?_⟩
        simp only [step, cacheNext, hmm, if_pos hah, hseg, henq]
      · exact htick _ hq
    · have hlt : s.sess.next < s.sess.nextCache := by
        by_contra hh
        refine hah ?_
        simp only [ahead, Bool.and_eq_true, decide_eq_true_eq]
        rw [hes]
        omega
      have hi : i < r.segs.length := by omega
      have hseg : r.segs[i]? = some r.segs[i] := List.getElem?_eq_getElem hi
      have hri : s.sess.readIdx = i % 50 := by rw [h.idx.1, b8]
      rcases hw.slots i r.segs[i] (by omega) (by omega) hseg with ⟨hready, hcache⟩ | ⟨_, hjob⟩
      · obtain ⟨b, hb, hB⟩ := h.blocks r hr i _ hseg
        rw [hcache] at hb
        simp only [Option.some.injEq] at hb
        obtain ⟨c1, c2, c3, _⟩ := hB.read hv hok hi
        have hfit := chunk_fits hv r.data.length i (by rw [← hok.len]; exact hi)
        rw [← hok.len] at hfit
        have hcons : ∃ s' o, consume cfg s = some (s', o) := by
          unfold consume
          rw [hmm]
          simp only [hri, hb, c1]
          rw [if_neg]
          · have hsize : (if (pushHeader cfg r.entry r.id i).next = cfg.last ∧ e.bundleSize % cfg.perSeg ≠ 0 then
                e.bundleSize % cfg.perSeg else cfg.perSeg) = chunkSize cfg r.data.length r.segs.length i := by
              unfold chunkSize
              rw [hbs]
              simp only [c2]
            rw [hsize, if_neg (by omega)]
            split <;> exact ⟨_, _, rfl⟩
          · have hah' : ahead s.sess e = false := by simpa using hah
            rw [hah', hready, hes, b8]
            simp only [Bool.not_true, Bool.or_self, Bool.false_or, decide_eq_true_eq, not_le]
            exact hi
        obtain ⟨s', o, hs⟩ := hcons
        exact ⟨.consume, s', o, trivial, hs⟩
      · exact htick _ (by intro hh; rw [hh] at hjob; simp at hjob)

theorem inner_allowed {cfg : Cfg} {s : State} {outs : List Out} {a : Act} (ha : Inner a) : Allowed cfg s outs a := by
  cases a <;> simp_all [Inner, Allowed]

theorem Runs.trans {cfg : Cfg} {P : Act → Prop} {s0 s1 s2 : State} {outs0 outs1 outs2 : List Out}
    (h1 : Runs cfg P s0 outs0 s1 outs1) (h2 : Runs cfg P s1 outs1 s2 outs2) : Runs cfg P s0 outs0 s2 outs2 := by
  induction h2 with
  | refl => exact h1
  | step s s' outs o a _ hp ha hs ih => exact .step s s' outs o a ih hp ha hs

/-- The call going on can be carried to its end. -/
theorem completes {cfg : Cfg} (hv : cfg.Valid) (n : Nat) : ∀ {s : State} {outs : List Out} {recs : List Rec}
    {leaked : List Nat} {H : Nat}, Inv cfg s outs recs leaked H → s.main ≠ .idle → s.left cfg ≤ n →
    ∃ s' x, Runs cfg Inner s outs s' (outs ++ [x]) ∧ s'.main = .idle ∧ s.main.Answer x := by
  induction n with
  | zero =>
    intro s outs recs leaked H h hm hn
    obtain ⟨a, s', o, ha, hs⟩ := inner_possible hv h hm
    have := (inner_step hv h a ha hs).1
    omega
  | succ n ih =>
    intro s outs recs leaked H h hm hn
    obtain ⟨a, s', o, ha, hs⟩ := inner_possible hv h hm
    obtain ⟨h1, h2⟩ := inner_step hv h a ha hs
    have hrun : Runs cfg Inner s outs s' (outs ++ o) := .step s s' outs o a .refl ha (inner_allowed ha) hs
    rcases h2 with ⟨rfl, h3, h4⟩ | ⟨x, rfl, h3, h4⟩
    · obtain ⟨recs', leaked', H', h5, _⟩ := inv_step hv h a (inner_allowed ha) hs
      rw [List.append_nil] at h5 hrun
      obtain ⟨s2, x, r1, r2, r3⟩ := ih h5 (fun hh => hm (h4.1 hh)) (by omega)
      refine ⟨s2, x, ?_, r2, by rw [← h3]; exact r3⟩
      exact hrun.trans r1
    · exact ⟨s', x, hrun, h3, h4⟩

/-- There is no endless sequence of inner steps. -/
theorem inner_acc {cfg : Cfg} (hv : cfg.Valid) (n : Nat) : ∀ {s : State} {outs : List Out} {recs : List Rec}
    {leaked : List Nat} {H : Nat}, Inv cfg s outs recs leaked H → s.left cfg ≤ n →
    Acc (fun s' s => ∃ a o, Inner a ∧ step cfg s a = some (s', o)) s := by
  induction n with
  | zero =>
    intro s outs recs leaked H h hn
    refine ⟨_, fun s' ⟨a, o, ha, hs⟩ => ?_⟩
    have := (inner_step hv h a ha hs).1
    omega
  | succ n ih =>
    intro s outs recs leaked H h hn
    refine ⟨_, fun s' ⟨a, o, ha, hs⟩ => ?_⟩
    have := (inner_step hv h a ha hs).1
    obtain ⟨recs', leaked', H', h5, _⟩ := inv_step hv h a (inner_allowed ha) hs
    exact ih h5 (by omega)

end Hdtn.Storage
