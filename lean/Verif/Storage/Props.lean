import Verif.Storage.Crash
import Verif.Storage.Progress

/-!
C28, C29, C30 and C65.
-/

namespace Hdtn.Storage

open Hdtn.Catalog Hdtn.HashMap16

/-- C28: in every history of allowed calls and turns of the disk threads, every answer is right, given
what is in the store by the answers before it. -/
theorem C28_answers_partial (cfg : Cfg) (hv : cfg.Valid) (s s' : State) (outs o : List Out)
    (h : Reaches cfg s outs) (a : Act) (ha : Allowed cfg s outs a) (hs : step cfg s a = some (s', o)) :
    ∀ x ∈ o, x.Right cfg (contentOf outs) := by
  obtain ⟨recs, leaked, H, hinv⟩ := inv_reaches hv h
  obtain ⟨_, _, _, _, h1⟩ := inv_step hv hinv a ha hs
  exact h1

/-- Answers given in the course of a history are right. -/
theorem right_of_runs {cfg : Cfg} (hv : cfg.Valid) {P : Act → Prop} {s0 s : State} {outs0 outs : List Out}
    (h : Runs cfg P s0 outs0 s outs) (h0 : ∃ recs leaked H, Inv cfg s0 outs0 recs leaked H)
    (pre post : List Out) (x : Out) (he : outs = pre ++ x :: post) (hl : outs0.length ≤ pre.length) :
    x.Right cfg (contentOf pre) := by
  induction h generalizing post with
  | refl =>
    have := congrArg List.length he
    simp at this
    omega
  | step s s' outs o a hr hp ha hs ih =>
    obtain ⟨recs, leaked, H, hinv⟩ := inv_runs hv hr h0
    obtain ⟨_, _, _, _, h1⟩ := inv_step hv hinv a ha hs
    have ho : o = [] ∨ ∃ y, o = [y] := by
      clear * - hs
      cases a with
      | tick d =>
        simp only [step, Option.map_eq_some_iff, Prod.mk.injEq] at hs
        obtain ⟨_, _, _, rfl⟩ := hs
        exact Or.inl rfl
      | store p data ps mask id =>
        simp only [step, store] at hs
        repeat' split at hs
        all_goals
          first
          | (simp only [Option.some.injEq, Prod.mk.injEq, reduceCtorEq] at hs
             obtain ⟨_, rfl⟩ := hs
             simp)
          | simp at hs
      | push junk =>
        simp only [step, push] at hs
        repeat' split at hs
        all_goals
          first
          | (simp only [Option.some.injEq, Prod.mk.injEq, reduceCtorEq] at hs
             obtain ⟨_, rfl⟩ := hs
             simp)
          | simp at hs
      | take sel =>
        simp only [step, take] at hs
        repeat' split at hs
        all_goals
          first
          | (simp only [Option.some.injEq, Prod.mk.injEq, reduceCtorEq] at hs
             obtain ⟨_, rfl⟩ := hs
             simp)
          | simp at hs
      | giveBack id =>
        simp only [step, giveBack] at hs
        repeat' split at hs
        all_goals
          first
          | (simp only [Option.some.injEq, Prod.mk.injEq, reduceCtorEq] at hs
             obtain ⟨_, rfl⟩ := hs
             simp)
          | simp at hs
      | readAll =>
        simp only [step, readAll] at hs
        repeat' split at hs
        all_goals
          first
          | (simp only [Option.some.injEq, Prod.mk.injEq, reduceCtorEq] at hs
             obtain ⟨_, rfl⟩ := hs
             simp)
          | simp at hs
      | readFirst id =>
        simp only [step, readFirst] at hs
        repeat' split at hs
        all_goals
          first
          | (simp only [Option.some.injEq, Prod.mk.injEq, reduceCtorEq] at hs
             obtain ⟨_, rfl⟩ := hs
             simp)
          | simp at hs
      | cacheNext =>
        simp only [step, cacheNext] at hs
        repeat' split at hs
        all_goals
          first
          | (simp only [Option.some.injEq, Prod.mk.injEq, reduceCtorEq] at hs
             obtain ⟨_, rfl⟩ := hs
             simp)
          | simp at hs
      | consume =>
        have hs' : consume cfg s = some (s', o) := hs
        unfold consume at hs'
        split at hs'
        · rename_i first id e count i buf got hm
          split at hs'
          · simp at hs'
          · simp only at hs'
            generalize (if (Header.read cfg (s.cache s.sess.readIdx)).next = cfg.last ∧
              e.bundleSize % cfg.perSeg ≠ 0 then e.bundleSize % cfg.perSeg else cfg.perSeg) = size at hs'
            split at hs'
            · simp at hs'
            · split at hs' <;> simp only [Option.some.injEq, Prod.mk.injEq] at hs' <;> obtain ⟨_, rfl⟩ := hs'
              · exact Or.inr ⟨_, rfl⟩
              · exact Or.inl rfl
        · simp at hs'
      | remove id awaiting junk =>
        simp only [step] at hs
        split at hs
        · unfold remove at hs
          split at hs
          · simp only [Option.some.injEq, Prod.mk.injEq] at hs
            obtain ⟨_, rfl⟩ := hs
            exact Or.inr ⟨_, rfl⟩
          · split at hs
            · simp only at hs
              split at hs
              · simp at hs
              · split at hs
                · simp at hs
                · split at hs
                  · simp only [Option.some.injEq, Prod.mk.injEq] at hs
                    obtain ⟨_, rfl⟩ := hs
                    exact Or.inr ⟨_, rfl⟩
                  · simp at hs
            · simp at hs
        · simp at hs
      | restart =>
        simp only [step, reboot] at hs
        repeat' split at hs
        all_goals
          first
          | (simp only [Option.some.injEq, Prod.mk.injEq, reduceCtorEq] at hs
             obtain ⟨_, rfl⟩ := hs
             simp)
          | simp at hs
      | crash =>
        simp only [step, reboot] at hs
        repeat' split at hs
        all_goals
          first
          | (simp only [Option.some.injEq, Prod.mk.injEq, reduceCtorEq] at hs
             obtain ⟨_, rfl⟩ := hs
             simp)
          | simp at hs
    rcases ho with rfl | ⟨y, rfl⟩
    · rw [List.append_nil] at he
      exact ih post he
    · rcases List.eq_nil_or_concat post with rfl | ⟨post', z, rfl⟩
      · have := List.append_inj' he rfl
        obtain ⟨rfl, hy⟩ := this
        simp only [List.cons.injEq, and_true] at hy
        subst hy
        exact h1 y (by simp)
      · refine ih post' ?_
        have : pre ++ x :: (post' ++ [z]) = (pre ++ x :: post') ++ [z] := by simp
        rw [List.concat_eq_append, this] at he
        exact (List.append_inj' he rfl).1

/-- C28: a bundle read in full is the bundle that was stored. -/
theorem C28_read_partial (cfg : Cfg) (hv : cfg.Valid) (s : State) (outs : List Out) (h : Reaches cfg s outs)
    (pre post : List Out) (id : Nat) (data : Bytes) (ok : Bool) (he : outs = pre ++ .read id data ok :: post) :
    ok = true ∧ contentOf pre id = some data :=
  right_of_runs hv h ⟨[], [], 0, inv_init cfg hv⟩ pre post _ he (by simp)

/-- C28: in the middle of a call some turn of the main thread or a disk thread is always possible,
there is no endless sequence of such turns, and the call can be carried to its end with an answer
to it. -/
theorem C28_calls_complete_partial (cfg : Cfg) (hv : cfg.Valid) (s : State) (outs : List Out)
    (h : Reaches cfg s outs) :
    Acc (fun s' s => ∃ a o, Inner a ∧ step cfg s a = some (s', o)) s ∧
    (s.main ≠ .idle → (∃ a s' o, Inner a ∧ step cfg s a = some (s', o)) ∧
      ∃ s' x, Runs cfg Inner s outs s' (outs ++ [x]) ∧ s'.main = .idle ∧ s.main.Answer x) := by
  obtain ⟨recs, leaked, H, hinv⟩ := inv_reaches hv h
  exact ⟨inner_acc hv _ hinv (Nat.le_refl _), fun hm => ⟨inner_possible hv hinv hm,
    completes hv _ hinv hm (Nat.le_refl _)⟩⟩

/-- C28: a bundle that was taken can be read, and what is read is what was stored. -/
theorem C28_taken_can_be_read_partial (cfg : Cfg) (hv : cfg.Valid) (s : State) (outs : List Out)
    (h : Reaches cfg s outs) (hi : s.main = .idle) (id : Nat) (hp : s.sess.ptr = some id)
    (hz : s.sess.next = 0 ∧ s.sess.nextCache = 0) (data : Bytes) (hc : contentOf outs id = some data) :
    ∃ s1 s2, step cfg s .readAll = some (s1, []) ∧
      Runs cfg Inner s1 outs s2 (outs ++ [.read id data true]) ∧ s2.main = .idle := by
  obtain ⟨recs, leaked, H, hinv⟩ := inv_reaches hv h
  obtain ⟨r, hr, h1, h2⟩ := (hinv.content id data).1 hc
  have he := (hinv.entries id r.entry).2 ⟨r, hr, h1, rfl⟩
  have hne : r.segs.length ≠ 0 := by
    have hok := hinv.ok r hr
    have hd : r.data.length ≠ 0 := by have := hok.ne; simpa using this
    rw [hok.len]
    have := (segsFor_spec hv r.data.length).2.1 (by omega)
    omega
  have hstep : step cfg s .readAll = some ({ s with
      main := .reading false id r.entry r.entry.segments.length 0 (List.replicate r.entry.bundleSize 0) 0 }, []) := by
    simp only [step, State.isIdle, hi, if_true, readAll, hp, he]
    rw [if_neg]
    exact hne
  have hreach : Reaches cfg { s with
      main := .reading false id r.entry r.entry.segments.length 0 (List.replicate r.entry.bundleSize 0) 0 } outs := by
    have := Runs.step s _ outs [] .readAll h trivial hz hstep
    rwa [List.append_nil] at this
  obtain ⟨s2, x, r1, r2, d, ok, rfl⟩ := ((C28_calls_complete_partial cfg hv _ outs hreach).2 (by simp)).2
  obtain ⟨recs1, leaked1, H1, hinv1⟩ := inv_reaches hv hreach
  have := right_of_runs hv r1 ⟨_, _, _, hinv1⟩ outs [] (.read id d ok) rfl (by simp)
  obtain ⟨rfl, hd⟩ := this
  rw [hc] at hd
  simp only [Option.some.injEq] at hd
  subst hd
  exact ⟨_, s2, hstep, r1, r2⟩

/-- C29: a restart in good order restores exactly the bundles in the store: the same custody
identifiers, with the same sizes, segments, classes and bundle identifiers, under the destination in
their primary block; all of them wait again; the files are as before, and exactly the same segments
are free. -/
theorem C29_restart_partial (cfg : Cfg) (hv : cfg.Valid) (s : State) (outs : List Out) (h : Reaches cfg s outs)
    (hi : s.main = .idle) (hd : s.drained cfg = true) (hdup : ∀ id, Out.duplicate id ∉ outs)
    (hroom : ∃ seg < cfg.maxSegments, readBlock cfg s.files seg = none) :
    ∃ s' n b k, step cfg s .restart = some (s', [.restored n b k]) ∧
      Reaches cfg s' (outs ++ [.restored n b k]) ∧
      (Out.restored n b k).Right cfg (contentOf outs) ∧
      (∀ id, (s'.cat.entry id).isSome = (s.cat.entry id).isSome) ∧
      (∀ id e, s.cat.entry id = some e → ∃ e' d, s'.cat.entry id = some e' ∧ e' = { e with dest := d } ∧
        id ∈ s'.cat.waiting d e.priority e.expiration ∧
        ∃ data p, contentOf outs id = some data ∧ Starts cfg data p ∧ d = p.dest) ∧
      (∀ x, MemoryManager.isFree s'.tree x = MemoryManager.isFree s.tree x) ∧
      s'.files = s.files := by
  obtain ⟨recs, leaked, H, hinv⟩ := inv_reaches hv h
  have hlk := hinv.leak hdup
  subst hlk
  obtain ⟨hf, hbd⟩ := hinv.files hv hi hd hdup hroom
  obtain ⟨s', n, b, k, recs', h1, h2, h3, h4, h5, h6, h7⟩ := inv_of_files hv hf hbd hinv.content
  have hstep : step cfg s .restart = some (s', [.restored n b k]) := by
    simp only [step, State.isIdle, hi, hd, Bool.and_self, if_true]
    exact h1
  have hent : ∀ id e', s'.cat.entry id = some e' ↔ ∃ r ∈ recs, r.id = id ∧ e' = r.unmask.entry := by
    intro id e'
    rw [h2.entries]
    constructor
    · rintro ⟨r, hr, rfl, rfl⟩
      obtain ⟨r', hr', rfl⟩ := List.mem_map.1 (h7.mem_iff.1 hr)
      exact ⟨r', hr', rfl, rfl⟩
    · rintro ⟨r, hr, rfl, rfl⟩
      exact ⟨r.unmask, h7.mem_iff.2 (List.mem_map.2 ⟨r, hr, rfl⟩), rfl, rfl⟩
  refine ⟨s', n, b, k, hstep, .step s s' outs _ .restart h trivial ⟨hdup, hroom⟩ hstep, h3, ?_, ?_, ?_, h6⟩
  · intro id
    rw [Bool.eq_iff_iff, Option.isSome_iff_exists, Option.isSome_iff_exists]
    constructor
    · rintro ⟨e', he'⟩
      obtain ⟨r, hr, hid, _⟩ := (hent id e').1 he'
      exact ⟨r.entry, (hinv.entries id _).2 ⟨r, hr, hid, rfl⟩⟩
    · rintro ⟨e, he⟩
      obtain ⟨r, hr, hid, _⟩ := (hinv.entries id e).1 he
      exact ⟨r.unmask.entry, (hent id _).2 ⟨r, hr, hid, rfl⟩⟩
  · intro id e he
    obtain ⟨r, hr, hid, rfl⟩ := (hinv.entries id e).1 he
    have he' := (hent id _).2 ⟨r, hr, hid, rfl⟩
    obtain ⟨ids, hc⟩ := inv_reachable _ h2.reach
    refine ⟨r.unmask.entry, r.p.dest, he', rfl, ?_, r.data, r.p, (hinv.content id _).2 ⟨r, hr, hid, rfl⟩,
      (hinv.ok r hr).starts, rfl⟩
    exact hc.flElse id _ he' (by rw [h5]; simp)
  · intro x
    obtain ⟨used, hu, hp⟩ := hinv.used
    obtain ⟨used', hu', hp'⟩ := h2.used
    rw [MemoryManager.isFree_spec _ _ hu, MemoryManager.isFree_spec _ _ hu', hinv.max, h2.max]
    have hm : x ∈ used' ↔ x ∈ used := by
      rw [hp.mem_iff, hp'.mem_iff, hi, h4]
      simp only [Main.pend, List.append_nil, List.mem_flatMap]
      constructor
      · rintro ⟨r, hr, hx⟩
        obtain ⟨r', hr', rfl⟩ := List.mem_map.1 (h7.mem_iff.1 hr)
        exact ⟨r', hr', hx⟩
      · rintro ⟨r, hr, hx⟩
        exact ⟨r.unmask, h7.mem_iff.2 (List.mem_map.2 ⟨r, hr, rfl⟩), hx⟩
    simp only [hm]

/-- C30, for one disk and bundles that fit in one segment: if the process stops at any point, with
any part of the work of the disk undone, the next one starts with the store exactly as it was at
some moment since everything was last on disk; from there on every answer is right again. -/
theorem C30_crash_partial (cfg : Cfg) (hv : cfg.Valid) (hone : cfg.disks = 1) (s1 s : State)
    (outs1 outs : List Out) (h1 : Runs cfg (Small cfg) (init cfg) [] s1 outs1) (hd : s1.drained cfg = true)
    (h2 : Runs cfg (Small cfg) s1 outs1 s outs) (hdup : ∀ id, Out.duplicate id ∉ outs)
    (hroom : ∃ seg < cfg.maxSegments, readBlock cfg s.files seg = none) :
    ∃ s' n b k pre, step cfg s .crash = some (s', [.restored n b k]) ∧ outs1 <+: pre ∧ pre <+: outs ∧
      (Out.restored n b k).Right cfg (contentOf pre) ∧
      ∀ s2 outs2, Runs cfg (fun _ => True) s' (pre ++ [.restored n b k]) s2 outs2 →
        ∀ pre2 post2 x, outs2 = pre2 ++ x :: post2 → pre.length < pre2.length →
          x.Right cfg (contentOf pre2) := by
  obtain ⟨s', n, b, k, pre, recs', H', c1, c2, c3, c4, c5⟩ := crash_spec hv hone h1 hd h2 hdup hroom
  refine ⟨s', n, b, k, pre, c1, c2, c3, c4, fun s2 outs2 hr pre2 post2 x he hl => ?_⟩
  exact right_of_runs hv hr ⟨recs', [], H', c5⟩ pre2 post2 x he (by simp; omega)

/-- The contents only change by answers about the bundle. -/
theorem contentOf_keep (id : Nat) (outs o : List Out) (h1 : ∀ d, Out.stored id d ∉ o)
    (h2 : ∀ ok, Out.removed id ok ∉ o) : contentOf (outs ++ o) id = contentOf outs id := by
  induction o generalizing outs with
  | nil => simp
  | cons x o ih =>
    have : outs ++ x :: o = (outs ++ [x]) ++ o := by simp
    rw [this, ih _ (fun d hd => h1 d (by simp [hd])) (fun ok hok => h2 ok (by simp [hok])), contentOf_append]
    cases x with
    | stored k d =>
      have : ¬ id = k := by
        intro hh; subst hh; exact h1 d (by simp)
      simp [contentStep, this]
    | removed k ok =>
      have : ¬ id = k := by
        intro hh; subst hh; exact h2 ok (by simp)
      simp [contentStep, this]
    | _ => rfl

/-- C30, for one disk and bundles that fit in one segment: a bundle that was stored and on disk, and
not removed since, is there after a crash at any point. -/
theorem C30_durable_partial (cfg : Cfg) (hv : cfg.Valid) (hone : cfg.disks = 1) (s1 s : State)
    (outs1 o : List Out) (h1 : Runs cfg (Small cfg) (init cfg) [] s1 outs1) (hd : s1.drained cfg = true)
    (h2 : Runs cfg (Small cfg) s1 outs1 s (outs1 ++ o)) (hdup : ∀ id, Out.duplicate id ∉ outs1 ++ o)
    (hroom : ∃ seg < cfg.maxSegments, readBlock cfg s.files seg = none) (id : Nat) (data : Bytes)
    (hc : contentOf outs1 id = some data) (hrem : ∀ ok, Out.removed id ok ∉ o) :
    ∃ s' n b k outs', step cfg s .crash = some (s', [.restored n b k]) ∧ contentOf outs' id = some data ∧
      (∃ e, s'.cat.entry id = some e ∧ e.bundleSize = data.length ∧
        id ∈ s'.cat.waiting e.dest e.priority e.expiration) ∧
      ∀ s2 outs2, Runs cfg (fun _ => True) s' outs' s2 outs2 →
        ∀ pre2 post2 x, outs2 = pre2 ++ x :: post2 → outs'.length ≤ pre2.length →
          x.Right cfg (contentOf pre2) := by
  obtain ⟨s', n, b, k, pre, recs', H', c1, c2, c3, c4, c5⟩ := crash_spec hv hone h1 hd h2 hdup hroom
  obtain ⟨o1, rfl⟩ := c2
  have ho1 : o1 <+: o := by
    rw [List.prefix_append_right_inj] at c3; exact c3
  have hrem1 : ∀ ok, Out.removed id ok ∉ o1 := fun ok hh => hrem ok (ho1.subset hh)
  have hst1 : ∀ d, Out.stored id d ∉ o1 := by
    intro d hh
    obtain ⟨a, b', rfl⟩ := List.append_of_mem hh
    obtain ⟨o2, rfl⟩ := ho1
    have hinv0 : ∃ recs leaked H, Inv cfg (init cfg) [] recs leaked H := ⟨[], [], 0, inv_init cfg hv⟩
    have hfull : Runs cfg (Small cfg) (init cfg) [] s (outs1 ++ (a ++ Out.stored id d :: b' ++ o2)) := h1.trans h2
    have step1 : ∀ (n : Nat) (a : List Out) (d : Bytes) (rest : List Out), a.length = n →
        Runs cfg (Small cfg) (init cfg) [] s (outs1 ++ (a ++ Out.stored id d :: rest)) →
        (∀ ok, Out.removed id ok ∉ a) → False := by
      intro n
      induction n using Nat.strong_induction_on with
      | _ n ih =>
        intro a d rest hn hrun hno
        have hR := right_of_runs hv hrun hinv0 (outs1 ++ a) rest (.stored id d) (by simp) (by simp)
        have hnone : contentOf (outs1 ++ a) id = none := hR.2
        by_cases hex : ∃ d', Out.stored id d' ∈ a
        · obtain ⟨d', hd'⟩ := hex
          obtain ⟨a1, a2, rfl⟩ := List.append_of_mem hd'
          refine ih a1.length (by simp at hn; omega) a1 d' (a2 ++ Out.stored id d :: rest) rfl ?_
            (fun ok hok => hno ok (by simp [hok]))
          simpa using hrun
        · push Not at hex
          rw [contentOf_keep id outs1 a hex hno, hc] at hnone
          simp at hnone
    refine step1 a.length a d (b' ++ o2) rfl ?_ (fun ok hok => hrem1 ok (by simp [hok]))
    simpa using hfull
  have hcont : contentOf (outs1 ++ o1) id = some data := by
    rw [contentOf_keep id outs1 o1 hst1 hrem1]; exact hc
  have hcont' : contentOf (outs1 ++ o1 ++ [.restored n b k]) id = some data := by
    rw [contentOf_append]; exact hcont
  refine ⟨s', n, b, k, outs1 ++ o1 ++ [.restored n b k], c1, hcont', ?_, fun s2 outs2 hr pre2 post2 x he hl =>
    right_of_runs hv hr ⟨recs', [], H', c5⟩ pre2 post2 x he hl⟩
  obtain ⟨r, hr, e1, e2⟩ := (c5.content id data).1 hcont'
  have he := (c5.entries id r.entry).2 ⟨r, hr, e1, rfl⟩
  obtain ⟨ids, hcat⟩ := inv_reachable _ c5.reach
  have htaken : s'.taken = [] := by
    simp only [step, reboot] at c1
    split at c1 <;> simp only [Option.some.injEq, Prod.mk.injEq, reduceCtorEq] at c1
    · rw [← c1.1]; rfl
    · rw [← c1.1]; rfl
  exact ⟨r.entry, he, by rw [← e2]; rfl, hcat.flElse id _ he (by rw [htaken]; simp)⟩

/-- C65: no segment is in two bundles, or twice in one, and all are below the capacity. -/
theorem C65_segments_apart (cfg : Cfg) (hv : cfg.Valid) (s : State) (outs : List Out) (h : Reaches cfg s outs) :
    (∀ id e, s.cat.entry id = some e → e.segments.Nodup ∧ e.segments.length = cfg.segsFor e.bundleSize ∧
      ∀ x ∈ e.segments, x < cfg.maxSegments ∧ MemoryManager.isFree s.tree x = some false) ∧
    ∀ id id' e e' x, s.cat.entry id = some e → s.cat.entry id' = some e' → x ∈ e.segments → x ∈ e'.segments →
      id = id' := by
  obtain ⟨recs, leaked, H, hinv⟩ := inv_reaches hv h
  constructor
  · intro id e he
    obtain ⟨r, hr, _, rfl⟩ := (hinv.entries id e).1 he
    refine ⟨hinv.segsNodup hr, (hinv.ok r hr).len, fun x hx => ⟨(hinv.ok r hr).lt x hx, ?_⟩⟩
    obtain ⟨used, hu, hp⟩ := hinv.used
    have : x ∈ used := hp.mem_iff.2 (by
      simp only [List.mem_append, List.mem_flatMap]
      exact Or.inl (Or.inl ⟨r, hr, hx⟩))
    rw [MemoryManager.isFree_spec _ _ hu]
    simp [this]
  · intro id id' e e' x he he' hx hx'
    obtain ⟨r, hr, h1, rfl⟩ := (hinv.entries id e).1 he
    obtain ⟨r', hr', h1', rfl⟩ := (hinv.entries id' e').1 he'
    rw [← h1, ← h1', hinv.disjoint hr hr' hx hx']

/-- C65, without duplicates: between calls a segment is free exactly when it is in no bundle. -/
theorem C65_no_leak_partial (cfg : Cfg) (hv : cfg.Valid) (s : State) (outs : List Out) (h : Reaches cfg s outs)
    (hi : s.main = .idle) (hdup : ∀ id, Out.duplicate id ∉ outs) (x : Nat) :
    MemoryManager.isFree s.tree x = some true ↔
      x < cfg.maxSegments ∧ ∀ id e, s.cat.entry id = some e → x ∉ e.segments := by
  obtain ⟨recs, leaked, H, hinv⟩ := inv_reaches hv h
  have hlk := hinv.leak hdup
  subst hlk
  obtain ⟨used, hu, hp⟩ := hinv.used
  rw [MemoryManager.isFree_spec _ _ hu, hinv.max, Option.some.injEq, decide_eq_true_eq, hp.mem_iff, hi]
  simp only [Main.pend, List.append_nil, List.mem_flatMap, not_exists, not_and]
  refine and_congr_right fun _ => ⟨fun hh id e he => ?_, fun hh r hr => ?_⟩
  · obtain ⟨r, hr, _, rfl⟩ := (hinv.entries id e).1 he
    exact hh r hr
  · exact hh r.id r.entry ((hinv.entries _ _).2 ⟨r, hr, rfl, rfl⟩)

/-- C65: a bundle is refused exactly when it is empty or there are not enough free segments. -/
theorem C65_refused (cfg : Cfg) (hv : cfg.Valid) (s : State) (outs : List Out) (h : Reaches cfg s outs)
    (hi : s.main = .idle) (p : Primary) (data : Bytes) (ps : Nat) (mask : Option Eid) (id : Nat) :
    ∃ s' o, step cfg s (.store p data ps mask id) = some (s', o) ∧
      (o = [.refused id] ↔ data = [] ∨
        ((List.range cfg.maxSegments).filter fun x => MemoryManager.isFree s.tree x = some true).length <
          cfg.segsFor data.length) ∧
      (o ≠ [.refused id] → o = [] ∧ ∃ e, s'.main = .pushing e p id data 0) := by
  obtain ⟨recs, leaked, H, hinv⟩ := inv_reaches hv h
  obtain ⟨used, hu, hp⟩ := hinv.used
  have hfree : ((List.range cfg.maxSegments).filter fun x => MemoryManager.isFree s.tree x = some true) =
      MemoryManager.freeIds s.tree.max used := by
    unfold MemoryManager.freeIds
    rw [hinv.max]
    refine List.filter_congr fun x hx => ?_
    rw [MemoryManager.isFree_spec _ _ hu, hinv.max]
    have : x < cfg.maxSegments := List.mem_range.1 hx
    simp [this]
  rw [hfree]
  have h0 : cfg.segsFor data.length = 0 ↔ data = [] := by
    obtain ⟨_, a2, a3, _⟩ := segsFor_spec hv data.length
    rw [← List.length_eq_zero_iff]
    constructor
    · intro hh; by_contra hne; have := a2 (by omega); omega
    · exact a3
  simp only [step, State.isIdle, hi, if_true, store]
  obtain ⟨t', _, ⟨h1, h2, _⟩ | ⟨h1, h2, _⟩⟩ := alloc_cases hu (cfg.segsFor data.length)
  · rw [h2]
    simp only [Bool.true_and, decide_eq_true_eq]
    by_cases hz : cfg.segsFor data.length = 0
    · rw [if_neg (by omega)]
      exact ⟨_, _, rfl, by simp [h0.1 hz], by simp⟩
    · rw [if_pos hz]
      have hd : data ≠ [] := fun hh => hz (h0.2 hh)
      exact ⟨_, _, rfl, by simp only [List.nil_eq, List.cons_ne_nil, hd, false_or, false_iff, reduceCtorEq]; omega,
        fun _ => ⟨rfl, _, rfl⟩⟩
  · rw [h2]
    simp only [Bool.false_and, Bool.false_eq_true, if_false]
    exact ⟨_, _, rfl, by simp [h1], by simp⟩

/-! Concrete cases and the disagreements. -/

/-- A decidable condition that implies `Allowed` when every block starts with the primary block
`p0`. -/
def allowedB (cfg : Cfg) (p0 : Primary) (s : State) (outs : List Out) : Act → Bool
  | .store p data payloadSize _ id =>
    decide (s.cat.entry id = none) && decide (p = p0) && decide (p.priority < 3) && decide (id < 2 ^ 64) &&
      decide (payloadSize < 2 ^ 64) && decide (data.length < 2 ^ 64 - 1)
  | .giveBack id => decide (id ∈ s.taken)
  | .readAll => decide (s.sess.next = 0) && decide (s.sess.nextCache = 0)
  | .readFirst id => match s.cat.entry id with
    | none => true
    | some e => decide (e.segments.length ≤ 1)
  | .remove id awaiting _ => (s.cat.entry id).isSome && decide (awaiting = true ↔ id ∉ s.taken)
  | .restart => (outs.all fun x => match x with
      | .duplicate _ => false
      | _ => true) && (List.range cfg.maxSegments).any fun seg => decide (readBlock cfg s.files seg = none)
  | .crash => false
  | _ => true

theorem allowed_of_allowedB {cfg : Cfg} {p0 : Primary} (hp : ∀ b, cfg.parse b = some p0) (s : State)
    (outs : List Out) (a : Act) (h : allowedB cfg p0 s outs a = true) : Allowed cfg s outs a := by
  cases a with
  | store p data ps mask id =>
    simp only [allowedB, Bool.and_eq_true, decide_eq_true_eq] at h
    obtain ⟨⟨⟨⟨⟨h1, rfl⟩, h2⟩, h3⟩, h4⟩, h5⟩ := h
    exact ⟨h1, h2, h3, h4, h5, fun _ _ => hp _⟩
  | giveBack id => simpa [allowedB, Allowed] using h
  | readAll => simpa [allowedB, Allowed] using h
  | readFirst id =>
    intro e he
    simp only [allowedB, he, decide_eq_true_eq] at h
    exact h
  | remove id awaiting junk =>
    simp only [allowedB, Bool.and_eq_true, decide_eq_true_eq] at h
    exact h
  | restart =>
    simp only [allowedB, Bool.and_eq_true, List.all_eq_true, List.any_eq_true, decide_eq_true_eq,
      List.mem_range] at h
    exact ⟨fun id hid => by simpa using h.1 _ hid, h.2⟩
  | crash => simp [allowedB] at h
  | _ => trivial

/-- A decidable form of `Small`. -/
def smallB (cfg : Cfg) : Act → Bool
  | .store _ data _ _ _ => decide (data.length ≤ cfg.perSeg)
  | _ => true

/-- A history, checked step by step. -/
def play (cfg : Cfg) (p0 : Primary) (small : Bool) : State → List Out → List Act → Option (State × List Out)
  | s, outs, [] => some (s, outs)
  | s, outs, a :: as =>
    if allowedB cfg p0 s outs a && (!small || smallB cfg a) then
      match step cfg s a with
      | none => none
      | some (s', o) => play cfg p0 small s' (outs ++ o) as
    else none

theorem runs_play {cfg : Cfg} {p0 : Primary} (hp : ∀ b, cfg.parse b = some p0) (small : Bool) (as : List Act) :
    ∀ (s : State) (outs : List Out) (s' : State) (outs' : List Out), play cfg p0 small s outs as = some (s', outs') →
      Runs cfg (fun a => small = true → Small cfg a) s outs s' outs' := by
  induction as with
  | nil =>
    intro s outs s' outs' h
    simp only [play, Option.some.injEq, Prod.mk.injEq] at h
    obtain ⟨rfl, rfl⟩ := h
    exact .refl
  | cons a as ih =>
    intro s outs s' outs' h
    simp only [play] at h
    split at h
    · rename_i hg
      split at h
      · simp at h
      · rename_i s1 o hs
        simp only [Bool.and_eq_true, Bool.or_eq_true, Bool.not_eq_true'] at hg
        refine Runs.trans (.step s s1 outs o a .refl (fun hsm => ?_) (allowed_of_allowedB hp s outs a hg.1) hs)
          (ih _ _ _ _ h)
        rcases hg.2 with h2 | h2
        · rw [h2] at hsm; simp at hsm
        · cases a with
          | store => simpa [smallB, Small] using h2
          | _ => trivial
    · simp at h

theorem Runs.weaken {cfg : Cfg} {P Q : Act → Prop} (hpq : ∀ a, P a → Q a) {s0 s : State} {outs0 outs : List Out}
    (h : Runs cfg P s0 outs0 s outs) : Runs cfg Q s0 outs0 s outs := by
  induction h with
  | refl => exact .refl
  | step s s' outs o a _ hp ha hs ih => exact .step s s' outs o a ih (hpq a hp) ha hs

theorem idle_of {s : State} (h : s.isIdle = true) : s.main = .idle := by
  unfold State.isIdle at h
  cases hm : s.main with
  | idle => rfl
  | _ => rw [hm] at h; simp at h

/-- The primary block of the bundles in the examples. -/
def exPrimary (custody : Bool) : Primary := ⟨custody, false, 1, 1, ⟨1, 1⟩, 0, ⟨2, 1⟩, 0, 1000, 1⟩

/-- One disk, segments of 4096 bytes with 4068 for the bundle. -/
def exCfg (custody : Bool) (maxSegments : Nat) : Cfg := ⟨1, 1, 4, maxSegments, fun _ => some (exPrimary custody)⟩

theorem exCfg_valid (custody : Bool) (n : Nat) (h : n ≤ 2 ^ 32 - 4) : (exCfg custody n).Valid :=
  ⟨Nat.le_refl 1, Nat.le_refl 1, Or.inl rfl, h⟩

theorem reaches_play (custody : Bool) (n : Nat) (as : List Act) (s : State) (outs : List Out)
    (h : play (exCfg custody n) (exPrimary custody) false (init (exCfg custody n)) [] as = some (s, outs)) :
    Reaches (exCfg custody n) s outs :=
  (runs_play (fun _ => rfl) false as _ _ _ _ h).weaken fun _ _ => trivial

/-- What is left of a block after `n` bytes of a bundle. -/
def fill (n : Nat) : Bytes := List.replicate (4068 - n) 0

/-- Two bundles of two segments. -/
def exA : Bytes := List.replicate 4069 1
def exB : Bytes := List.replicate 4069 2

/-- Storing both, with the work of the disk. -/
def exStore : List Act :=
  [.store (exPrimary false) exA 0 none 1, .push [], .push (fill 1), .store (exPrimary false) exB 0 none 2, .push [],
    .push (fill 1), .tick 0, .tick 0, .tick 0, .tick 0]

def exRead : List Act := [.readAll, .cacheNext, .cacheNext, .tick 0, .tick 0, .consume, .consume]

/-- The histories are not empty of interest: two bundles of two segments stored, taken and read, one removed, the
other read after a restart. -/
example : ∃ s outs, Reaches (exCfg false 8) s outs ∧
    outs = [.stored 1 exA, .stored 2 exB, .took 1 4069, .read 1 exA true, .removed 1 true, .restored 1 4069 2,
      .took 2 4069, .read 2 exB true] ∧ s.main = .idle ∧ s.drained (exCfg false 8) = true := by
  have h : (play (exCfg false 8) (exPrimary false) false (init (exCfg false 8)) [] (exStore ++ [.take (.nodes [2])] ++ exRead ++
      [.remove 1 false (List.replicate 4088 0), .tick 0, .restart, .take (.nodes [2])] ++ exRead)).map
      (fun x => (x.2, x.1.isIdle, x.1.drained (exCfg false 8))) = some ([.stored 1 exA, .stored 2 exB, .took 1 4069,
        .read 1 exA true, .removed 1 true, .restored 1 4069 2, .took 2 4069, .read 2 exB true], true, true) := by
    decide +kernel
  rw [Option.map_eq_some_iff] at h
  obtain ⟨⟨s, outs⟩, h1, h2⟩ := h
  simp only [Prod.mk.injEq] at h2
  refine ⟨s, outs, reaches_play _ _ _ _ _ h1, h2.1, idle_of h2.2.1, h2.2.2⟩

/-- C28 fails when `ReadFirstSegment` was called on a bundle of two segments before: the segment read
ahead for it arrives in the read cache of the next bundle, whose contents are then wrong, and the
call reports success. -/
theorem C28_read_ahead_violated :
    ∃ s outs, Reaches (exCfg false 8) s outs ∧ s.main = .idle ∧ contentOf outs 2 = some exB ∧
      ∃ s' d, (([.readFirst 1, .cacheNext, .cacheNext, .tick 0, .consume, .take (.nodes [2]), .take (.nodes [2]), .readAll,
            .cacheNext, .cacheNext, .tick 0, .tick 0, .consume, .consume] : List Act).foldl
          (fun st a => st.bind fun x => (step (exCfg false 8) x.1 a).map fun y => (y.1, x.2 ++ y.2)) (some (s, []))) =
        some (s', [.first 1 (exA.take 4068) true, .took 1 4069, .took 2 4069, .read 2 d true]) ∧ d ≠ exB := by
  have h : (play (exCfg false 8) (exPrimary false) false (init (exCfg false 8)) [] exStore).map (fun x =>
      (x.2, x.1.isIdle, (([.readFirst 1, .cacheNext, .cacheNext, .tick 0, .consume, .take (.nodes [2]),
          .take (.nodes [2]), .readAll, .cacheNext, .cacheNext, .tick 0, .tick 0, .consume, .consume] : List Act).foldl
          (fun st a => st.bind fun x => (step (exCfg false 8) x.1 a).map fun y => (y.1, x.2 ++ y.2))
            (some (x.1, []))).map (·.2))) =
      some ([.stored 1 exA, .stored 2 exB], true, some [.first 1 (exA.take 4068) true, .took 1 4069, .took 2 4069,
        .read 2 (List.replicate 4068 2 ++ [1]) true]) := by
    decide +kernel
  rw [Option.map_eq_some_iff] at h
  obtain ⟨⟨s, outs⟩, h1, h2⟩ := h
  simp only [Prod.mk.injEq] at h2
  obtain ⟨rfl, h3, h4⟩ := h2
  rw [Option.map_eq_some_iff] at h4
  obtain ⟨⟨s', o⟩, h5, rfl⟩ := h4
  refine ⟨s, _, reaches_play _ _ _ _ _ h1, idle_of h3, by decide +kernel, s', List.replicate 4068 2 ++ [1], h5,
    by decide +kernel⟩
/-- C29 fails when every segment has been written once: restoring then never ends. -/
theorem C29_full_store_violated :
    ∃ s outs, Reaches (exCfg false 1) s outs ∧ s.main = .idle ∧ s.drained (exCfg false 1) = true ∧
      contentOf outs 1 = some [7] ∧ restore (exCfg false 1) s.files = .hangs := by
  have h : (play (exCfg false 1) (exPrimary false) false (init (exCfg false 1)) []
      [.store (exPrimary false) [7] 0 none 1, .push (fill 1), .tick 0]).map (fun x =>
      (x.2, x.1.isIdle, x.1.drained (exCfg false 1), match restore (exCfg false 1) x.1.files with
        | .hangs => true
        | _ => false)) = some ([.stored 1 [7]], true, true, true) := by
    decide +kernel
  rw [Option.map_eq_some_iff] at h
  obtain ⟨⟨s, outs⟩, h1, h2⟩ := h
  simp only [Prod.mk.injEq] at h2
  obtain ⟨rfl, h3, h4, h5⟩ := h2
  refine ⟨s, _, reaches_play _ _ _ _ _ h1, idle_of h3, h4, by decide +kernel, ?_⟩
  cases hr : restore (exCfg false 1) s.files <;> simp_all

/-- C30 fails: if the process stops between the two writes of a bundle of two segments, restoring
fails at that bundle, and the files with all bundles are emptied. -/
theorem C30_between_writes_violated :
    ∃ s1 s outs1 outs s', Reaches (exCfg false 8) s1 outs1 ∧ s1.main = .idle ∧ s1.drained (exCfg false 8) = true ∧
      contentOf outs1 1 = some exA ∧ Runs (exCfg false 8) (fun _ => True) s1 outs1 s outs ∧
      contentOf outs 1 = some exA ∧ step (exCfg false 8) s .crash = some (s', [.notRestored]) ∧
      s'.files 0 = [] := by
  have h : ∃ s1 outs1, play (exCfg false 8) (exPrimary false) false (init (exCfg false 8)) []
      [.store (exPrimary false) exA 0 none 1, .push [], .push (fill 1), .tick 0, .tick 0] = some (s1, outs1) ∧
      outs1 = [.stored 1 exA] ∧ s1.isIdle = true ∧ s1.drained (exCfg false 8) = true ∧
      (match play (exCfg false 8) (exPrimary false) false s1 outs1
          [.store (exPrimary false) exB 0 none 2, .push [], .tick 0] with
        | none => false
        | some (s, outs) => decide (outs = [.stored 1 exA]) && match step (exCfg false 8) s .crash with
          | none => false
          | some (s', o) => decide (o = [.notRestored]) && (s'.files 0).isEmpty) = true := by
    cases hp : play (exCfg false 8) (exPrimary false) false (init (exCfg false 8)) []
        [.store (exPrimary false) exA 0 none 1, .push [], .push (fill 1), .tick 0, .tick 0] with
    | none => exact absurd (congrArg Option.isSome hp) (by decide +kernel)
    | some x =>
      have hx : (match play (exCfg false 8) (exPrimary false) false (init (exCfg false 8)) []
          [.store (exPrimary false) exA 0 none 1, .push [], .push (fill 1), .tick 0, .tick 0] with
          | none => false
          | some (s1, outs1) => decide (outs1 = [.stored 1 exA]) && s1.isIdle && s1.drained (exCfg false 8) &&
            (match play (exCfg false 8) (exPrimary false) false s1 outs1
              [.store (exPrimary false) exB 0 none 2, .push [], .tick 0] with
            | none => false
            | some (s, outs) => decide (outs = [.stored 1 exA]) && match step (exCfg false 8) s .crash with
              | none => false
              | some (s', o) => decide (o = [.notRestored]) && (s'.files 0).isEmpty)) = true := by
        decide +kernel
      rw [hp] at hx
      obtain ⟨s1, outs1⟩ := x
      simp only [Bool.and_eq_true, decide_eq_true_eq] at hx
      exact ⟨s1, outs1, rfl, hx.1.1.1, hx.1.1.2, hx.1.2, hx.2⟩
  obtain ⟨s1, outs1, h1, rfl, h3, h4, h5⟩ := h
  split at h5
  · simp at h5
  rename_i s outs h6
  rw [Bool.and_eq_true, decide_eq_true_eq] at h5
  obtain ⟨rfl, h5⟩ := h5
  split at h5
  · simp at h5
  rename_i s' o h9
  rw [Bool.and_eq_true, decide_eq_true_eq] at h5
  obtain ⟨rfl, h11⟩ := h5
  refine ⟨s1, s, _, _, s', reaches_play _ _ _ _ _ h1, idle_of h3, h4, by decide +kernel,
    (runs_play (fun _ => rfl) false _ _ _ _ _ h6).weaken fun _ _ => trivial, by decide +kernel, h9, List.isEmpty_iff.1 h11⟩
/-- The hypotheses of C30's partial theorems are met, in the middle of writing a second bundle. -/
example : ∃ s1 s outs1 o, Runs (exCfg false 8) (Small (exCfg false 8)) (init (exCfg false 8)) [] s1 outs1 ∧
    s1.drained (exCfg false 8) = true ∧ Runs (exCfg false 8) (Small (exCfg false 8)) s1 outs1 s (outs1 ++ o) ∧
    (∀ id, Out.duplicate id ∉ outs1 ++ o) ∧
    (∃ seg < (exCfg false 8).maxSegments, readBlock (exCfg false 8) s.files seg = none) ∧
    contentOf outs1 1 = some [7, 8] ∧ (∀ ok, Out.removed 1 ok ∉ o) ∧ o = [.stored 2 [9]] ∧
    s.drained (exCfg false 8) = false := by
  have h : (play (exCfg false 8) (exPrimary false) true (init (exCfg false 8)) []
      [.store (exPrimary false) [7, 8] 0 none 1, .push (fill 2), .tick 0]).map (fun x =>
      (x.2, x.1.drained (exCfg false 8), (play (exCfg false 8) (exPrimary false) true x.1 x.2
        [.store (exPrimary false) [9] 0 none 2, .push (fill 1)]).map fun y => (y.2, y.1.drained (exCfg false 8),
          decide (readBlock (exCfg false 8) y.1.files 2 = none)))) =
      some ([.stored 1 [7, 8]], true, some ([.stored 1 [7, 8], .stored 2 [9]], false, true)) := by
    decide +kernel
  rw [Option.map_eq_some_iff] at h
  obtain ⟨⟨s1, outs1⟩, h1, h2⟩ := h
  simp only [Prod.mk.injEq] at h2
  obtain ⟨rfl, h4, h5⟩ := h2
  rw [Option.map_eq_some_iff] at h5
  obtain ⟨⟨s, outs⟩, h6, h7⟩ := h5
  simp only [Prod.mk.injEq, decide_eq_true_eq] at h7
  obtain ⟨rfl, h8, h9⟩ := h7
  refine ⟨s1, s, _, [.stored 2 [9]], (runs_play (fun _ => rfl) true _ _ _ _ _ h1).weaken fun _ h => h rfl, h4,
    (runs_play (fun _ => rfl) true _ _ _ _ _ h6).weaken fun _ h => h rfl, by simp, ⟨2, by decide, h9⟩,
    by decide +kernel, by simp, rfl, h8⟩

/-- C65 fails with duplicates: a bundle with custody stored a second time is reported as stored, is
not in the catalog, and its segment is never freed. -/
theorem C65_duplicate_violated :
    ∃ s outs, Reaches (exCfg true 8) s outs ∧ s.main = .idle ∧
      outs = [.stored 1 [7], .duplicate 2, .removed 1 true] ∧ contentOf outs 1 = none ∧ contentOf outs 2 = none ∧
      s.cat.entry 1 = none ∧ s.cat.entry 2 = none ∧ MemoryManager.isFree s.tree 1 = some false := by
  have h : (play (exCfg true 8) (exPrimary true) false (init (exCfg true 8)) []
      [.store (exPrimary true) [7] 0 none 1, .push (fill 1), .store (exPrimary true) [7] 0 none 2, .push (fill 1),
        .remove 1 true (List.replicate 4088 0)]).map (fun x =>
      (x.2, x.1.isIdle, x.1.cat.entry 1, x.1.cat.entry 2, MemoryManager.isFree x.1.tree 1)) =
      some ([.stored 1 [7], .duplicate 2, .removed 1 true], true, none, none, some false) := by
    decide +kernel
  rw [Option.map_eq_some_iff] at h
  obtain ⟨⟨s, outs⟩, h1, h2⟩ := h
  simp only [Prod.mk.injEq] at h2
  obtain ⟨rfl, h3, h4, h5, h6⟩ := h2
  refine ⟨s, _, reaches_play _ _ _ _ _ h1, idle_of h3, rfl, by decide +kernel, by decide +kernel, h4, h5, h6⟩

end Hdtn.Storage
