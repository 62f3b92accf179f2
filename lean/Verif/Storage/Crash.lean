import Verif.Storage.Restart

/-!
Crashes, for one disk and bundles that fit in one segment: the file is that of an earlier moment.
-/

namespace Hdtn.Storage

open Hdtn.Catalog Hdtn.HashMap16

/-- The jobs in the queue lead from the bundles in the file to those in the store, and `K` holds of
the bundles all the way. -/
inductive Log (cfg : Cfg) (K : List Rec → Prop) : List Rec → Nat → List Job → List Rec → Nat → Prop
  | nil (recs : List Rec) (H : Nat) (hk : K recs) : Log cfg K recs H [] recs H
  | store (recs recs' : List Rec) (H H' : Nat) (r : Rec) (seg : Nat) (b : Bytes) (q : List Job)
      (hk : K recs) (hok : r.Ok cfg) (hs : r.segs = [seg]) (hle : seg ≤ H) (hid : r.id ∉ recs.map Rec.id)
      (hfree : seg ∉ recs.flatMap Rec.segs)
      (hkey : ∀ r' ∈ recs, keyOf r.p r.ps ≠ .null → keyOf r.p r.ps ≠ keyOf r'.p r'.ps)
      (hb : r.Block cfg 0 b) (h : Log cfg K (r :: recs) (if seg = H then H + 1 else H) q recs' H') :
      Log cfg K recs H (.write seg b :: q) recs' H'
  | remove (as bs recs' : List Rec) (H H' : Nat) (r : Rec) (seg : Nat) (b : Bytes) (q : List Job)
      (hk : K (as ++ r :: bs)) (hs : r.segs = [seg]) (hb : fromLe (b.take 8) = U64 - 1)
      (h : Log cfg K (as ++ bs) H q recs' H') : Log cfg K (as ++ r :: bs) H (.write seg b :: q) recs' H'
  | read (recs recs' : List Rec) (H H' : Nat) (seg slot : Nat) (q : List Job) (hk : K recs)
      (h : Log cfg K recs H q recs' H') : Log cfg K recs H (.read seg slot :: q) recs' H'

theorem Log.trans {cfg : Cfg} {K : List Rec → Prop} {recs recs1 recs2 : List Rec} {H H1 H2 : Nat} {q q' : List Job}
    (h1 : Log cfg K recs H q recs1 H1) (h2 : Log cfg K recs1 H1 q' recs2 H2) :
    Log cfg K recs H (q ++ q') recs2 H2 := by
  induction h1 with
  | nil => exact h2
  | store recs recs' H H' r seg b q hk a1 a2 a3 a4 a5 a6 a7 _ ih =>
    exact .store _ _ _ _ r seg b _ hk a1 a2 a3 a4 a5 a6 a7 (ih h2)
  | remove as bs recs' H H' r seg b q hk a1 a2 _ ih => exact .remove as bs _ _ _ r seg b _ hk a1 a2 (ih h2)
  | read recs recs' H H' seg slot q hk _ ih => exact .read _ _ _ _ seg slot _ hk (ih h2)

theorem Log.start {cfg : Cfg} {K : List Rec → Prop} {recs recs' : List Rec} {H H' : Nat} {q : List Job}
    (h : Log cfg K recs H q recs' H') : K recs := by
  cases h <;> assumption

theorem Log.finish {cfg : Cfg} {K : List Rec → Prop} {recs recs' : List Rec} {H H' : Nat} {q : List Job}
    (h : Log cfg K recs H q recs' H') : K recs' := by
  induction h <;> assumption

theorem read_one {cfg : Cfg} (hd : cfg.disks = 1) (files : Nat → List Bytes) (x : Nat) :
    readBlock cfg files x = (files 0)[x]? := by
  unfold readBlock
  rw [hd]
  simp [Nat.mod_one]

/-- One block more in the file. -/
theorem read_write {cfg : Cfg} (hd : cfg.disks = 1) {files : Nat → List Bytes} {recs : List Rec} {H : Nat}
    (hf : Files cfg files recs H) (seg : Nat) (b : Bytes) (hle : seg ≤ H) (x : Nat) :
    readBlock cfg (fun d => if d = 0 then writeAt cfg (files 0) (seg / cfg.disks) b else files d) x =
      if x = seg then some b else readBlock cfg files x := by
  have hl : seg ≤ (files 0).length := by
    by_cases h0 : seg = 0
    · omega
    · have := (hf.len (seg - 1)).2 (by omega)
      rw [read_one hd] at this
      by_contra hh
      rw [List.getElem?_eq_none (by omega)] at this
      simp at this
  rw [read_one hd, read_one hd]
  simp only [if_true, hd, Nat.div_one]
  rw [writeAt_get _ _ _ _ hl]

theorem files_store {cfg : Cfg} (hd : cfg.disks = 1) {files : Nat → List Bytes} {recs : List Rec} {H : Nat}
    (hf : Files cfg files recs H) (r : Rec) (seg : Nat) (b : Bytes) (hok : r.Ok cfg) (hs : r.segs = [seg])
    (hle : seg ≤ H) (hid : r.id ∉ recs.map Rec.id) (hfree : seg ∉ recs.flatMap Rec.segs)
    (hkey : ∀ r' ∈ recs, keyOf r.p r.ps ≠ .null → keyOf r.p r.ps ≠ keyOf r'.p r'.ps) (hb : r.Block cfg 0 b) :
    Files cfg (fun d => if d = 0 then writeAt cfg (files 0) (seg / cfg.disks) b else files d) (r :: recs)
      (if seg = H then H + 1 else H) := by
  have himg := read_write hd hf seg b hle
  refine ⟨?_, ?_, ?_, ?_, ?_, ?_, ?_⟩
  · intro r' hr'
    rcases List.mem_cons.1 hr' with rfl | hr'
    · exact hok
    · exact hf.ok r' hr'
  · rw [List.map_cons, List.nodup_cons]; exact ⟨hid, hf.distinct⟩
  · rw [List.flatMap_cons, hs, List.singleton_append, List.nodup_cons]; exact ⟨hfree, hf.segs⟩
  · intro r1 h1 r2 h2 hn hk
    rcases List.mem_cons.1 h1 with e1 | e1
    · rcases List.mem_cons.1 h2 with e2 | e2
      · rw [e1, e2]
      · rw [e1] at hn hk
        exact absurd hk (hkey r2 e2 hn)
    · rcases List.mem_cons.1 h2 with e2 | e2
      · rw [hk] at hn
        rw [e2] at hn hk
        exact absurd hk.symm (hkey r1 e1 hn)
      · exact hf.keys r1 e1 r2 e2 hn hk
  · intro r' hr' i sg hi
    rcases List.mem_cons.1 hr' with rfl | hr'
    · rw [hs] at hi
      cases i with
      | zero =>
        simp only [List.getElem?_cons_zero, Option.some.injEq] at hi
        subst hi
        exact ⟨b, by rw [himg, if_pos rfl], hb⟩
      | succ i => simp at hi
    · obtain ⟨b', h1, h2⟩ := hf.blocks r' hr' i sg hi
      refine ⟨b', ?_, h2⟩
      rw [himg, if_neg, h1]
      intro hh
      subst hh
      exact hfree (List.mem_flatMap.2 ⟨r', hr', List.mem_of_getElem? hi⟩)
  · intro sg b' hb' hn
    rw [himg] at hb'
    have hne : sg ≠ seg := by
      intro hh
      subst hh
      exact hn r (by simp) (by rw [hs]; rfl)
    rw [if_neg hne] at hb'
    exact hf.nonHead sg b' hb' fun r' hr' => hn r' (by simp [hr'])
  · intro x
    rw [himg]
    by_cases hx : x = seg
    · rw [if_pos hx]; subst hx; simp only [Option.isSome_some, true_iff]; split <;> omega
    · rw [if_neg hx, hf.len]; split <;> omega

theorem files_remove {cfg : Cfg} (hd : cfg.disks = 1) {files : Nat → List Bytes} {as bs : List Rec} {H : Nat}
    (r : Rec) (hf : Files cfg files (as ++ r :: bs) H) (seg : Nat) (b : Bytes) (hs : r.segs = [seg])
    (hb : fromLe (b.take 8) = U64 - 1) :
    Files cfg (fun d => if d = 0 then writeAt cfg (files 0) (seg / cfg.disks) b else files d) (as ++ bs) H := by
  have hlt : seg < H := by
    obtain ⟨b', h1, _⟩ := hf.blocks r (by simp) 0 seg (by rw [hs]; rfl)
    exact (hf.len seg).1 (by rw [h1]; rfl)
  have himg := read_write hd hf seg b (by omega)
  have hsub : ∀ r' ∈ as ++ bs, r' ∈ as ++ r :: bs := by
    intro r' hr'
    simp only [List.mem_append, List.mem_cons] at hr' ⊢
    rcases hr' with h | h
    · exact Or.inl h
    · exact Or.inr (Or.inr h)
  have hseg := hf.segs
  rw [List.flatMap_append, List.flatMap_cons, hs, List.singleton_append, List.nodup_middle, List.nodup_cons] at hseg
  refine ⟨fun r' hr' => hf.ok r' (hsub r' hr'), ?_, ?_, ?_, ?_, ?_, ?_⟩
  · have := hf.distinct
    rw [List.map_append, List.map_cons, List.nodup_middle, List.nodup_cons] at this
    rw [List.map_append]; exact this.2
  · rw [List.flatMap_append]; exact hseg.2
  · exact fun r1 h1 r2 h2 => hf.keys r1 (hsub r1 h1) r2 (hsub r2 h2)
  · intro r' hr' i sg hi
    obtain ⟨b', h1, h2⟩ := hf.blocks r' (hsub r' hr') i sg hi
    refine ⟨b', ?_, h2⟩
    rw [himg, if_neg, h1]
    intro hh
    subst hh
    refine hseg.1 ?_
    rw [← List.flatMap_append]
    exact List.mem_flatMap.2 ⟨r', hr', List.mem_of_getElem? hi⟩
  · intro sg b' hb' hn
    rw [himg] at hb'
    by_cases hx : sg = seg
    · rw [if_pos hx] at hb'
      simp only [Option.some.injEq] at hb'
      rw [← hb']; exact hb
    · rw [if_neg hx] at hb'
      refine hf.nonHead sg b' hb' fun r' hr' => ?_
      simp only [List.mem_append, List.mem_cons] at hr'
      rcases hr' with h | h | h
      · exact hn r' (by simp [h])
      · subst h
        rw [hs]
        intro hh
        simp only [List.getElem?_cons_zero, Option.some.injEq] at hh
        exact hx hh.symm
      · exact hn r' (by simp [h])
  · intro x
    rw [himg]
    by_cases hx : x = seg
    · rw [if_pos hx]; subst hx; simp [hlt]
    · rw [if_neg hx, hf.len]

/-- The invariant, with what is in the file. -/
structure One (cfg : Cfg) (K : List Rec → Prop) (s : State) (outs : List Out) (recs : List Rec) (H : Nat)
    (recsD : List Rec) (HD : Nat) : Prop where
  inv : Inv cfg s outs recs [] H
  files : Files cfg s.files recsD HD
  log : Log cfg K recsD HD (s.queues 0) recs H
  small : ∀ r ∈ recs, r.data.length ≤ cfg.perSeg
  main : ∀ e p id data i, s.main = .pushing e p id data i → data.length ≤ cfg.perSeg

/-- Nothing new for the disk. -/
theorem One.same {cfg : Cfg} {K : List Rec → Prop} {s s' : State} {outs outs' : List Out} {recs recsD : List Rec}
    {H HD : Nat} (h : One cfg K s outs recs H recsD HD) (hi : Inv cfg s' outs' recs [] H)
    (hf : s'.files = s.files) (hq : s'.queues = s.queues)
    (hm : ∀ e p id data i, s'.main = .pushing e p id data i → data.length ≤ cfg.perSeg) :
    One cfg K s' outs' recs H recsD HD :=
  ⟨hi, by rw [hf]; exact h.files, by rw [hq]; exact h.log, h.small, hm⟩

theorem one_seg {cfg : Cfg} (hv : cfg.Valid) {r : Rec} (hok : r.Ok cfg) (h : r.data.length ≤ cfg.perSeg) :
    r.segs.length = 1 := by
  have hne : r.data.length ≠ 0 := by have := hok.ne; simpa using this
  have hp := hv.perSeg_pos
  rw [hok.len]
  obtain ⟨h1, h2, _, h4⟩ := segsFor_spec hv r.data.length
  have h2 := h2 (by omega)
  have h4 := h4 (by omega)
  generalize cfg.segsFor r.data.length = n at *
  by_contra hh
  have : cfg.perSeg ≤ (n - 1) * cfg.perSeg := Nat.le_mul_of_pos_left _ (by omega)
  omega

theorem one_tick {cfg : Cfg} (hd : cfg.disks = 1) {K : List Rec → Prop} {s s' : State} {outs : List Out}
    {recs recsD : List Rec} {H HD d : Nat} (h : One cfg K s outs recs H recsD HD) (hs : tick cfg s d = some s') :
    ∃ recsD' HD', One cfg K s' outs recs H recsD' HD' := by
  have hinv := inv_tick h.inv hs
  obtain ⟨_, _, _, _, _, hmain, _⟩ := tick_disk h.inv.disk hs
  have hm : ∀ e p id data i, s'.main = .pushing e p id data i → data.length ≤ cfg.perSeg := by
    rw [hmain]; exact h.main
  have hlog := h.log
  have hd0 : d = 0 := by
    cases hq : s.queues d with
    | nil => unfold tick at hs; rw [hq] at hs; simp at hs
    | cons j q =>
      have := (h.inv.disk.jobs d j (by rw [hq]; simp)).2
      rw [hd, Nat.mod_one] at this
      exact this.symm
  subst hd0
  unfold tick at hs
  split at hs
  · simp at hs
  · rename_i seg b rest hq
    rw [hq] at hlog
    split at hs
    · simp at hs
    · simp only [Option.some.injEq] at hs
      subst hs
      generalize hj : Job.write seg b :: rest = q at hlog
      cases hlog with
      | nil => simp at hj
      | store _ _ _ _ r sg b' q hk a1 a2 a3 a4 a5 a6 a7 hl =>
        simp only [List.cons.injEq, Job.write.injEq] at hj
        obtain ⟨⟨rfl, rfl⟩, rfl⟩ := hj
        exact ⟨r :: recsD, _, hinv, files_store hd h.files r seg b a1 a2 a3 a4 a5 a6 a7, by simpa using hl,
          h.small, hm⟩
      | remove as bs _ _ _ r sg b' q hk a1 a2 hl =>
        simp only [List.cons.injEq, Job.write.injEq] at hj
        obtain ⟨⟨rfl, rfl⟩, rfl⟩ := hj
        exact ⟨as ++ bs, HD, hinv, files_remove hd r h.files seg b a1 a2, by simpa using hl, h.small, hm⟩
      | read => simp at hj
  · rename_i seg slot rest hq
    rw [hq] at hlog
    split at hs
    · simp at hs
    · simp only [Option.some.injEq] at hs
      subst hs
      generalize hj : Job.read seg slot :: rest = q at hlog
      cases hlog with
      | nil => simp at hj
      | store => simp at hj
      | remove => simp at hj
      | read _ _ _ _ sg sl q hk hl =>
        simp only [List.cons.injEq, Job.read.injEq] at hj
        obtain ⟨⟨rfl, rfl⟩, rfl⟩ := hj
        exact ⟨recsD, HD, hinv, h.files, by simpa using hl, h.small, hm⟩

/-- The invariant is kept by the steps allowed. -/
theorem one_step {cfg : Cfg} (hv : cfg.Valid) (hd : cfg.disks = 1) {K : List Rec → Prop} {s s' : State}
    {outs o : List Out} {recs recsD : List Rec} {H HD : Nat} (h : One cfg K s outs recs H recsD HD) (a : Act)
    (ha : Allowed cfg s outs a) (hsm : Small cfg a) (hs : step cfg s a = some (s', o))
    (hdup : ∀ id, Out.duplicate id ∉ outs ++ o)
    (hk : ∀ recs', (∀ k d, contentOf (outs ++ o) k = some d ↔ ∃ r ∈ recs', r.id = k ∧ r.data = d) → K recs') :
    ∃ recs' H' recsD' HD', One cfg K s' (outs ++ o) recs' H' recsD' HD' := by
  have hidle : s.isIdle = true → s.main = .idle := by
    unfold State.isIdle
    cases s.main <;> simp
  have hnp : s.main = .idle → ∀ s2 : State, s2.main = s.main →
      ∀ e p id data i, s2.main = .pushing e p id data i → data.length ≤ cfg.perSeg := by
    intro h1 s2 h2 e p id data i h3
    rw [h2, h1] at h3; simp at h3
  cases a with
  | tick d =>
    simp only [step, Option.map_eq_some_iff, Prod.mk.injEq] at hs
    obtain ⟨s1, h1, rfl, rfl⟩ := hs
    obtain ⟨recsD', HD', h2⟩ := one_tick hd h h1
    exact ⟨recs, H, recsD', HD', by simpa using h2⟩
  | store p data ps mask id =>
    simp only [step] at hs
    split at hs
    · rename_i hi
      obtain ⟨a1, a2, a3, a4, a5, a6⟩ := ha
      have hinv := (inv_store hv h.inv (hidle hi) p data ps mask id a1 a2 a3 a4 a5 a6 hs).1
      have hsd : data.length ≤ cfg.perSeg := hsm
      unfold store at hs
      split at hs
      · simp at hs
      · split at hs
        · simp only [Option.some.injEq, Prod.mk.injEq] at hs
          obtain ⟨rfl, rfl⟩ := hs
          refine ⟨recs, H, recsD, HD, h.same hinv rfl rfl fun e p' id' data' i hm => ?_⟩
          simp only [Main.pushing.injEq] at hm
          rw [← hm.2.2.2.1]; exact hsd
        · simp only [Option.some.injEq, Prod.mk.injEq] at hs
          obtain ⟨rfl, rfl⟩ := hs
          exact ⟨recs, H, recsD, HD, h.same hinv rfl rfl (hnp (hidle hi) _ rfl)⟩
    · simp at hs
  | push junk =>
    obtain ⟨recs', leaked', H', h1, h2, e, p, id, data, i, seg, b, hm, hp⟩ := inv_push hv h.inv junk hs
    have hlk := h1.leak hdup
    subst hlk
    have hdl := h.main e p id data i hm
    have hmain := h.inv.main
    unfold MainOk at hmain
    rw [hm] at hmain
    obtain ⟨_, _, ps, mask, he, hok, hi, _⟩ := hmain
    have hone := one_seg hv hok hdl
    have hone' : e.segments.length = 1 := hone
    have hi0 : i = 0 := by omega
    rcases hp.out with ⟨hlast, ho, hidl, r, hr, r1, r2, r3, r4⟩ | ho | ⟨hne, _⟩
    · subst hr
      have hsegs : r.segs = [seg] := by
        have := hp.here
        rw [r3]
        rw [hi0] at this
        match hes : e.segments, hone' with
        | [x], _ =>
          rw [hes] at this
          simpa using this
      have hq0 : s'.queues 0 = s.queues 0 ++ [.write seg b] := by
        rw [hp.queues, hd]; simp [Nat.mod_one]
      have hrok := h1.ok r (by simp)
      refine ⟨r :: recs, H', recsD, HD, h1, by rw [hp.files]; exact h.files, ?_, ?_, ?_⟩
      · rw [hq0]
        refine h.log.trans ?_
        have hdis := h1.distinct
        rw [List.map_cons, List.nodup_cons] at hdis
        have hnod := h1.nodup
        rw [List.append_assoc, List.nodup_append] at hnod
        have hseg := hnod.1
        rw [List.flatMap_cons, hsegs, List.singleton_append, List.nodup_cons] at hseg
        refine .store recs _ H _ r seg b [] h.log.finish hrok hsegs hp.le hdis.1 hseg.1 ?_ ?_ ?_
        · intro r' hr' hn hk
          have := h1.keys r (by simp) r' (by simp [hr']) hn hk
          subst this
          exact hdis.1 (List.mem_map.2 ⟨r, hr', rfl⟩)
        · rw [hi0] at r4; exact r4
        · rw [hp.next]
          exact .nil _ _ (hk _ h1.content)
      · intro r' hr'
        rcases List.mem_cons.1 hr' with rfl | hr'
        · rw [r2]; exact hdl
        · exact h.small r' hr'
      · intro e' p' id' data' i' hm'
        rw [hidl] at hm'; simp at hm'
    · exact absurd (show Out.duplicate id ∈ outs ++ o by rw [ho]; simp) (hdup id)
    · omega
  | take sel =>
    simp only [step] at hs
    split at hs
    · rename_i hi
      have hinv := (inv_take h.inv (hidle hi) sel hs).1
      refine ⟨recs, H, recsD, HD, ?_⟩
      unfold take at hs
      split at hs
      · simp at hs
      all_goals
        simp only [Option.some.injEq, Prod.mk.injEq] at hs
        obtain ⟨rfl, rfl⟩ := hs
        exact h.same hinv rfl rfl (hnp (hidle hi) _ rfl)
    · simp at hs
  | giveBack id =>
    simp only [step] at hs
    split at hs
    · rename_i hi
      have hinv := (inv_giveBack h.inv (hidle hi) id ha hs).1
      refine ⟨recs, H, recsD, HD, ?_⟩
      unfold giveBack at hs
      split at hs
      · simp only [Option.some.injEq, Prod.mk.injEq] at hs
        obtain ⟨rfl, rfl⟩ := hs
        exact h.same hinv rfl rfl (hnp (hidle hi) _ rfl)
      · split at hs
        · simp at hs
        · simp only [Option.some.injEq, Prod.mk.injEq] at hs
          obtain ⟨rfl, rfl⟩ := hs
          exact h.same hinv rfl rfl (hnp (hidle hi) _ rfl)
    · simp at hs
  | readAll =>
    simp only [step] at hs
    split at hs
    · rename_i hi
      have hinv := (inv_readAll hv h.inv (hidle hi) ha hs).1
      refine ⟨recs, H, recsD, HD, ?_⟩
      unfold readAll at hs
      split at hs
      · simp at hs
      · split at hs
        · simp at hs
        · split at hs
          · simp only [Option.some.injEq, Prod.mk.injEq] at hs
            obtain ⟨rfl, rfl⟩ := hs
            exact h.same hinv rfl rfl (hnp (hidle hi) _ rfl)
          · simp only [Option.some.injEq, Prod.mk.injEq] at hs
            obtain ⟨rfl, rfl⟩ := hs
            exact h.same hinv rfl rfl (by simp)
    · simp at hs
  | readFirst id =>
    simp only [step] at hs
    split at hs
    · rename_i hi
      have hinv := (inv_readFirst hv h.inv (hidle hi) id ha hs).1
      refine ⟨recs, H, recsD, HD, ?_⟩
      unfold readFirst at hs
      split at hs
      · simp only [Option.some.injEq, Prod.mk.injEq] at hs
        obtain ⟨rfl, rfl⟩ := hs
        exact h.same hinv rfl rfl (hnp (hidle hi) _ rfl)
      · split at hs
        · simp only [Option.some.injEq, Prod.mk.injEq] at hs
          obtain ⟨rfl, rfl⟩ := hs
          exact h.same hinv rfl rfl (hnp (hidle hi) _ rfl)
        · simp only [Option.some.injEq, Prod.mk.injEq] at hs
          obtain ⟨rfl, rfl⟩ := hs
          exact h.same hinv rfl rfl (by simp)
    · simp at hs
  | cacheNext =>
    have hinv := (inv_cacheNext h.inv hs).1
    have hs' : cacheNext cfg s = some (s', o) := hs
    unfold cacheNext at hs'
    split at hs'
    · rename_i first id e count i buf got hm
      split at hs'
      · split at hs'
        · simp at hs'
        · rename_i seg hseg
          cases henq : s.enqueue cfg seg (.read seg s.sess.writeIdx) with
          | none => rw [henq] at hs'; simp at hs'
          | some s1 =>
            rw [henq] at hs'
            simp only [Option.some.injEq, Prod.mk.injEq] at hs'
            have hq := enqueue_queues henq
            have hf1 : s1.files = s.files ∧ s1.main = s.main := by
              unfold State.enqueue at henq
              split at henq
              · simp only [Option.some.injEq] at henq; subst henq; exact ⟨rfl, rfl⟩
              · simp at henq
            obtain ⟨rfl, rfl⟩ := hs'
            refine ⟨recs, H, recsD, HD, hinv, ?_, ?_, h.small, ?_⟩
            · show Files cfg s1.files _ _
              rw [hf1.1]; exact h.files
            · show Log cfg K recsD HD (s1.queues 0) recs H
              have : s1.queues 0 = s.queues 0 ++ [.read seg s.sess.writeIdx] := by
                rw [hq, hd]; simp [Nat.mod_one]
              rw [this]
              exact h.log.trans (.read _ _ _ _ _ _ _ h.log.finish (.nil _ _ h.log.finish))
            · intro e' p' id' data' i' hm'
              have : s1.main = .pushing e' p' id' data' i' := hm'
              rw [hf1.2, hm] at this; simp at this
      · simp at hs'
    · simp at hs'
  | consume =>
    have hinv := (inv_consume hv h.inv hs).1
    have hs' : consume cfg s = some (s', o) := hs
    refine ⟨recs, H, recsD, HD, ?_⟩
    unfold consume at hs'
    split at hs'
    · split at hs'
      · simp at hs'
      · rename_i e _ _ _ _ _ _
        simp only at hs'
        generalize (if (Header.read cfg (s.cache s.sess.readIdx)).next = cfg.last ∧ e.bundleSize % cfg.perSeg ≠ 0
          then e.bundleSize % cfg.perSeg else cfg.perSeg) = size at hs'
        split at hs'
        · simp at hs'
        · split at hs'
          · simp only [Option.some.injEq, Prod.mk.injEq] at hs'
            obtain ⟨rfl, rfl⟩ := hs'
            exact h.same hinv rfl rfl (by simp)
          · simp only [Option.some.injEq, Prod.mk.injEq] at hs'
            obtain ⟨rfl, rfl⟩ := hs'
            exact h.same hinv rfl rfl (by simp)
    · simp at hs'
  | remove id awaiting junk =>
    simp only [step] at hs
    split at hs
    · rename_i hi
      obtain ⟨recs', h1, _, as, r, bs, seg, b, e1, e2, e3, e4, e5, e6, e7, e8, e9⟩ :=
        inv_remove hv h.inv (hidle hi) id awaiting junk ha.1 ha.2 hs
      subst e1 e2
      have hrm : r ∈ as ++ r :: bs := by simp
      have hone := one_seg hv (h.inv.ok r hrm) (h.small r hrm)
      have hsegs : r.segs = [seg] := by
        match hes : r.segs, hone with
        | [x], _ =>
          rw [hes] at e4
          simpa using e4
      refine ⟨as ++ bs, H, recsD, HD, h1, by rw [e6]; exact h.files, ?_, ?_, ?_⟩
      · have : s'.queues 0 = s.queues 0 ++ [.write seg b] := by rw [e9, hd]; simp [Nat.mod_one]
        rw [this]
        refine h.log.trans (.remove as bs _ _ _ r seg b [] h.log.finish hsegs e5 (.nil _ _ ?_))
        exact hk _ h1.content
      · intro r' hr'
        refine h.small r' ?_
        simp only [List.mem_append, List.mem_cons] at hr' ⊢
        rcases hr' with h | h
        · exact Or.inl h
        · exact Or.inr (Or.inr h)
      · exact hnp (hidle hi) s' e7
    · simp at hs
  | restart =>
    simp only [step] at hs
    split at hs
    · rename_i hi
      simp only [Bool.and_eq_true] at hi
      obtain ⟨hf, hbd⟩ := h.inv.files hv (hidle hi.1) hi.2 ha.1 ha.2
      obtain ⟨s1, n, b, k, recs', h1, h2, h3, h4, h5, h6, h7⟩ := inv_of_files hv hf hbd h.inv.content
      rw [h1] at hs
      simp only [Option.some.injEq, Prod.mk.injEq] at hs
      obtain ⟨rfl, rfl⟩ := hs
      have hq : s1.queues = fun _ => [] := by
        unfold reboot at h1
        split at h1 <;> simp only [Option.some.injEq, Prod.mk.injEq, reduceCtorEq] at h1
        · rw [← h1.1]; rfl
        · rw [← h1.1]; rfl
      have hdr : s1.drained cfg = true := by unfold State.drained; simp [hq]
      obtain ⟨hf', _⟩ := h2.files hv h4 hdr hdup (by rw [h6]; exact ha.2)
      refine ⟨recs', H, recs', H, h2, hf', ?_, ?_, ?_⟩
      · rw [hq]; exact .nil _ _ (hk _ h2.content)
      · intro r hr
        have := h7.mem_iff.1 hr
        rw [List.mem_map] at this
        obtain ⟨r', hr', rfl⟩ := this
        exact h.small r' hr'
      · intro e p id data i hm
        rw [h4] at hm; simp at hm
    · simp at hs
  | crash => exact absurd ha (by simp [Allowed])

theorem Runs.prefix {cfg : Cfg} {P : Act → Prop} {s0 s : State} {outs0 outs : List Out}
    (h : Runs cfg P s0 outs0 s outs) : outs0 <+: outs := by
  induction h with
  | refl => exact List.prefix_refl _
  | step s s' outs o a _ _ _ _ ih => exact ih.trans (List.prefix_append _ _)

theorem one_runs {cfg : Cfg} (hv : cfg.Valid) (hd : cfg.disks = 1) {K : List Rec → Prop} {s0 s : State}
    {outs0 outs : List Out} (h : Runs cfg (Small cfg) s0 outs0 s outs)
    (h0 : ∃ recs H recsD HD, One cfg K s0 outs0 recs H recsD HD) (hdup : ∀ id, Out.duplicate id ∉ outs)
    (hk : ∀ pre, outs0 <+: pre → pre <+: outs → ∀ recs',
      (∀ k d, contentOf pre k = some d ↔ ∃ r ∈ recs', r.id = k ∧ r.data = d) → K recs') :
    ∃ recs H recsD HD, One cfg K s outs recs H recsD HD := by
  induction h with
  | refl => exact h0
  | step s s' outs o a hr hp ha hs ih =>
    obtain ⟨recs, H, recsD, HD, h1⟩ := ih (fun id hh => hdup id (by simp [hh]))
      (fun pre h1 h2 => hk pre h1 (h2.trans (List.prefix_append _ _)))
    exact one_step hv hd h1 a ha hp hs hdup
      (hk _ (hr.prefix.trans (List.prefix_append _ _)) (List.prefix_refl _))

theorem one_init {cfg : Cfg} (hv : cfg.Valid) (K : List Rec → Prop) (hk : K []) :
    One cfg K (init cfg) [] [] 0 [] 0 where
  inv := inv_init cfg hv
  files := ⟨by simp, by simp, by simp, by simp, by simp, fun seg b h => by simp [readBlock, init] at h,
    fun seg => by simp [readBlock, init]⟩
  log := .nil _ _ hk
  small := by simp
  main := by simp [init]

/-- After a crash the store is as it was at a moment since the last time everything was on disk. -/
theorem crash_spec {cfg : Cfg} (hv : cfg.Valid) (hd : cfg.disks = 1) {s1 s : State} {outs1 outs : List Out}
    (h1 : Runs cfg (Small cfg) (init cfg) [] s1 outs1) (hdr : s1.drained cfg = true)
    (h2 : Runs cfg (Small cfg) s1 outs1 s outs) (hdup : ∀ id, Out.duplicate id ∉ outs)
    (hroom : ∃ seg < cfg.maxSegments, readBlock cfg s.files seg = none) :
    ∃ s' n b k pre recs' H', step cfg s .crash = some (s', [.restored n b k]) ∧ outs1 <+: pre ∧ pre <+: outs ∧
      (Out.restored n b k).Right cfg (contentOf pre) ∧
      Inv cfg s' (pre ++ [.restored n b k]) recs' [] H' := by
  obtain ⟨recs, H, recsD, HD, ho⟩ := one_runs hv hd (K := fun _ => True) h1
    ⟨[], 0, [], 0, one_init hv _ trivial⟩ (fun id hh => hdup id (h2.prefix.subset hh)) (fun _ _ _ _ _ => trivial)
  have hq : s1.queues 0 = [] := by
    unfold State.drained at hdr
    rw [hd] at hdr
    simpa using hdr
  have hlog := ho.log
  rw [hq] at hlog
  generalize hqq : ([] : List Job) = q at hlog
  cases hlog with
  | store => simp at hqq
  | remove => simp at hqq
  | read => simp at hqq
  | nil =>
    let K : List Rec → Prop := fun recs => ∃ pre, outs1 <+: pre ∧ pre <+: outs ∧
      ∀ k d, contentOf pre k = some d ↔ ∃ r ∈ recs, r.id = k ∧ r.data = d
    have ho1 : One cfg K s1 outs1 recs H recs H :=
      ⟨ho.inv, ho.files, by rw [hq]; exact .nil _ _ ⟨outs1, List.prefix_refl _, h2.prefix, ho.inv.content⟩,
        ho.small, ho.main⟩
    obtain ⟨recs2, H2, recsD2, HD2, ho2⟩ := one_runs hv hd h2 ⟨_, _, _, _, ho1⟩ hdup
      (fun pre p1 p2 recs' hc => ⟨pre, p1, p2, hc⟩)
    obtain ⟨pre, p1, p2, hc⟩ := ho2.log.start
    obtain ⟨seg, hs1, hs2⟩ := hroom
    have hbd : HD2 < cfg.maxSegments := by
      by_contra hh
      have := (ho2.files.len seg).2 (by omega)
      rw [hs2] at this; simp at this
    obtain ⟨s', n, b, k, recs', r1, r2, r3, _⟩ := inv_of_files hv ho2.files hbd hc
    exact ⟨s', n, b, k, pre, recs', HD2, by simpa [step] using r1, p1, p2, r3, r2⟩

end Hdtn.Storage
