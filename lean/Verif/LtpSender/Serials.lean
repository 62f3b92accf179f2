import Verif.LtpSender.History
import Mathlib.Data.List.Nodup

namespace Hdtn.LtpSender
open Hdtn.FragmentSet Hdtn.LtpReport
open Hdtn.LtpReceiver (Seg Reason)

/-! ### Checkpoint serial numbers and retries -/

/-- The same checkpoint, possibly in another attempt. -/
def Same (g f : Resend) : Prop :=
  f.offset = g.offset ∧ f.length = g.length ∧ f.checkpoint = g.checkpoint ∧ f.report = g.report ∧
    f.flags = g.flags

/-- The serial numbers that are queued or have a timer. -/
def keys (st : State) : List Nat :=
  (st.resend.filter fun f => f.flags ≠ 0).map Resend.checkpoint ++ st.timers.map Prod.fst

/-- A checkpoint that needs no more attempts: it was answered, or its bytes are claimed, or the session
is over. -/
def Settled (evs : List Event) (st : State) (g : Resend) : Prop :=
  (∃ n r, Event.report n g.checkpoint r ∈ evs) ∨
  (∀ x, g.offset ≤ x → x < g.offset + g.length → Claimed evs x) ∨ st.didNotify = true

/-- The ledger of all checkpoints made so far. -/
structure Ledger (cfg : Cfg) (s0 : Nat) (evs : List Event) (st : State) (effs : List Eff)
    (issued : List Resend) : Prop where
  csns : issued.map Resend.checkpoint = (List.range issued.length).map fun i => (s0 + i) % U64
  next : st.nextCsn = (s0 + issued.length) % U64
  count : issued.length + st.pending.length ≤ evs.length
  good : ∀ g ∈ issued, g.Ok cfg ∧ g.flags ≠ 0
  resend : ∀ f ∈ st.resend, f.flags ≠ 0 → ∃ g ∈ issued, Same g f
  timers : ∀ t ∈ st.timers, ∃ g ∈ issued, Same g t.2
  sent : ∀ s ∈ segments effs, ∀ n, s.checkpoint = some n → ∃ g ∈ issued,
    g.checkpoint = n.1 ∧ g.report = n.2 ∧ g.flags = s.flags ∧ g.offset = s.offset ∧ g.length = s.length
  keys : (keys st).Nodup
  queued : ∀ f ∈ st.resend, f.flags ≠ 0 →
    transmissions effs f.checkpoint + 1 = f.retry ∧ f.retry ≤ cfg.maxRetries + 1
  running : ∀ t ∈ st.timers, transmissions effs t.1 = t.2.retry ∧ t.2.retry ≤ cfg.maxRetries + 1
  bound : ∀ csn, transmissions effs csn ≤ cfg.maxRetries + 1
  exhausted : ∀ r, Eff.delete true r ∈ effs → ∃ csn, transmissions effs csn = cfg.maxRetries + 1
  alive : ∀ g ∈ issued, g.checkpoint ∈ LtpSender.keys st ∨ Settled evs st g

theorem init_ledger (cfg : Cfg) (s0 : Nat) (hs : s0 < 2 ^ 64) :
    Ledger cfg s0 [] (init cfg s0) [] [] where
  csns := rfl
  next := by simp only [init, List.length_nil, Nat.add_zero, U64]; rw [Nat.mod_eq_of_lt hs]
  count := by simp [init]
  good := by simp
  resend := by simp [init]
  timers := by simp [init]
  sent := by simp [segments]
  keys := by simp [LtpSender.keys, init]
  queued := by simp [init]
  running := by simp [init]
  bound := fun csn => by simp [transmissions, segments]
  exhausted := by simp
  alive := by simp

theorem serials_nodup (s0 k : Nat) (h : k ≤ 2 ^ 64) :
    ((List.range k).map fun i => (s0 + i) % U64).Nodup := by
  apply List.Nodup.map_on _ List.nodup_range
  intro i hi j hj he
  rw [List.mem_range] at hi hj
  simp only [U64] at he
  omega

theorem mem_keys {st : State} {c : Nat} :
    c ∈ keys st ↔ (∃ f ∈ st.resend, f.flags ≠ 0 ∧ f.checkpoint = c) ∨ ∃ f, (c, f) ∈ st.timers := by
  simp only [keys, List.mem_append, List.mem_map, List.mem_filter, decide_eq_true_eq]
  constructor
  · rintro (⟨f, ⟨h1, h2⟩, h3⟩ | ⟨⟨a, f⟩, h1, rfl⟩)
    · exact .inl ⟨f, h1, h2, h3⟩
    · exact .inr ⟨f, h1⟩
  · rintro (⟨f, h1, h2, h3⟩ | ⟨f, h⟩)
    · exact .inl ⟨f, ⟨h1, h2⟩, h3⟩
    · exact .inr ⟨(c, f), h, rfl⟩

theorem Settled.mono {evs : List Event} {st st' : State} {g : Resend} (e : Event)
    (hd : st.didNotify = true → st'.didNotify = true) (h : Settled evs st g) :
    Settled (evs ++ [e]) st' g := by
  rcases h with ⟨n, r, h⟩ | h | h
  · exact .inl ⟨n, r, by simp [h]⟩
  · exact .inr (.inl fun x h1 h2 => (claimed_snoc _ _ _).2 (.inl (h x h1 h2)))
  · exact .inr (.inr (hd h))

theorem Ledger.keys_issued {cfg : Cfg} {s0 : Nat} {evs : List Event} {st : State} {effs : List Eff}
    {issued : List Resend} (h : Ledger cfg s0 evs st effs issued) (hi : Inv cfg st) (c : Nat)
    (hc : c ∈ LtpSender.keys st) : c ∈ issued.map Resend.checkpoint := by
  rcases mem_keys.1 hc with ⟨f, h1, h2, rfl⟩ | ⟨f, h1⟩
  · obtain ⟨g, k1, k2⟩ := h.resend f h1 h2
    exact List.mem_map.2 ⟨g, k1, k2.2.2.1.symm⟩
  · obtain ⟨g, k1, k2⟩ := h.timers _ h1
    exact List.mem_map.2 ⟨g, k1, by rw [← k2.2.2.1]; exact (hi.timers _ h1).2.2⟩

theorem Ledger.fresh {cfg : Cfg} {s0 : Nat} {evs : List Event} {st : State} {effs : List Eff}
    {issued : List Resend} (h : Ledger cfg s0 evs st effs issued) (c : Nat)
    (hc : c ∉ issued.map Resend.checkpoint) : transmissions effs c = 0 := by
  unfold transmissions
  rw [List.countP_eq_zero]
  intro s hs hcp
  cases hn : s.checkpoint with
  | none => rw [hn] at hcp; simp at hcp
  | some n =>
    rw [hn] at hcp
    simp only [Option.map_some, beq_iff_eq, Option.some.injEq] at hcp
    obtain ⟨g, k1, k2, -⟩ := h.sent s hs n hn
    exact hc (List.mem_map.2 ⟨g, k1, by rw [k2, hcp]⟩)

theorem issue_serials {issued q : List Resend} {s0 n : Nat}
    (h : issued.map Resend.checkpoint = (List.range issued.length).map fun i => (s0 + i) % U64)
    (hq : q.map Resend.checkpoint =
      (List.range n).map fun i => ((s0 + issued.length) % U64 + i) % U64) :
    (issued ++ q).map Resend.checkpoint =
      (List.range (issued ++ q).length).map fun i => (s0 + i) % U64 := by
  have hl : q.length = n := by simpa using congrArg List.length hq
  rw [List.map_append, h, hq, List.length_append, hl, List.range_add, List.map_append, List.map_map]
  congr 1
  apply List.map_congr_left
  intro i _
  simp only [Function.comp, U64, Nat.mod_add_mod, Nat.add_assoc]

theorem transmissions_none (effs : List Eff) (h : ∀ s ∈ segments effs, s.checkpoint = none) (c : Nat) :
    transmissions effs c = 0 := by
  unfold transmissions
  rw [List.countP_eq_zero]
  intro s hs hcp
  rw [h s hs] at hcp
  simp at hcp

/-- Steps that send no checkpoint: the queue may lose entries and gain new ones, timers may go. -/
theorem Ledger.grow {cfg : Cfg} {s0 : Nat} {evs : List Event} {st st' : State} {effs effs' : List Eff}
    {issued base q : List Resend} {n : Nat} {e : Event} (h : Ledger cfg s0 evs st effs issued)
    (hi : Inv cfg st) (hev : evs.length + 1 ≤ 2 ^ 64)
    (hres : st'.resend = base ++ q) (hbase : base.Sublist st.resend)
    (htim : st'.timers.Sublist st.timers) (hp : Push cfg st.nextCsn n q)
    (hcsn : st'.nextCsn = (st.nextCsn + n) % U64)
    (hpend : n + st'.pending.length ≤ st.pending.length + 1)
    (hseg : ∀ s ∈ segments effs', s.checkpoint = none)
    (hex : ∀ r, Eff.delete true r ∈ effs' → ∃ csn, transmissions effs csn = cfg.maxRetries + 1)
    (hdn : st.didNotify = true → st'.didNotify = true)
    (hal : ∀ g ∈ issued, g.checkpoint ∈ LtpSender.keys st →
      g.checkpoint ∈ LtpSender.keys st' ∨ Settled (evs ++ [e]) st' g) :
    Ledger cfg s0 (evs ++ [e]) st' (effs ++ effs') (issued ++ q.filter fun f => f.flags ≠ 0) := by
  have hser := hp.serials
  have hqn : (q.filter fun f => f.flags ≠ 0).length = n := by simpa using congrArg List.length hser
  rw [h.next] at hser
  have hall := issue_serials h.csns hser
  have hcount := h.count
  have hlen : (issued ++ q.filter fun f => f.flags ≠ 0).length ≤ 2 ^ 64 := by
    rw [List.length_append, hqn]; omega
  have hnd := serials_nodup s0 _ hlen
  rw [← hall, List.map_append, List.nodup_append] at hnd
  obtain ⟨-, hnd2, hnd3⟩ := hnd
  have htr : ∀ c, transmissions (effs ++ effs') c = transmissions effs c := fun c => by
    rw [transmissions_append, transmissions_none _ hseg]; rfl
  refine ⟨hall, ?_, ?_, ?_, ?_, ?_, ?_, ?_, ?_, ?_, ?_, ?_, ?_⟩
  · rw [hcsn, h.next, List.length_append, hqn, Nat.mod_add_mod, Nat.add_assoc]
  · rw [List.length_append, hqn, List.length_append, List.length_singleton]; omega
  · intro g hg
    rcases List.mem_append.1 hg with hg | hg
    · exact h.good g hg
    · rw [List.mem_filter, decide_eq_true_eq] at hg; exact ⟨hp.ok g hg.1, hg.2⟩
  · intro f hf hz
    rw [hres] at hf
    rcases List.mem_append.1 hf with hf | hf
    · obtain ⟨g, k1, k2⟩ := h.resend f (hbase.subset hf) hz
      exact ⟨g, by simp [k1], k2⟩
    · exact ⟨f, by simp [hf, hz], rfl, rfl, rfl, rfl, rfl⟩
  · intro t ht
    obtain ⟨g, k1, k2⟩ := h.timers t (htim.subset ht)
    exact ⟨g, by simp [k1], k2⟩
  · intro s hs m hm
    rw [segments_append] at hs
    rcases List.mem_append.1 hs with hs | hs
    · obtain ⟨g, k1, k2⟩ := h.sent s hs m hm
      exact ⟨g, by simp [k1], k2⟩
    · rw [hseg s hs] at hm; cases hm
  · -- keys
    have hold : (((base.filter fun f => f.flags ≠ 0).map Resend.checkpoint) ++
        st'.timers.map Prod.fst).Nodup :=
      h.keys.sublist (((hbase.filter _).map _).append (htim.map _))
    have hnew : ((q.filter fun f => f.flags ≠ 0).map Resend.checkpoint).Nodup := hnd2
    have hdis : ∀ c ∈ ((base.filter fun f => f.flags ≠ 0).map Resend.checkpoint) ++
        st'.timers.map Prod.fst, c ∉ (q.filter fun f => f.flags ≠ 0).map Resend.checkpoint := by
      intro c hc hc'
      have : c ∈ LtpSender.keys st :=
        ((((hbase.filter _).map _).append (htim.map _)).subset hc)
      exact hnd3 c (h.keys_issued hi c this) c hc' rfl
    rw [LtpSender.keys, hres, List.filter_append, List.map_append]
    have hperm : (((base.filter fun f => f.flags ≠ 0).map Resend.checkpoint ++
        (q.filter fun f => f.flags ≠ 0).map Resend.checkpoint) ++ st'.timers.map Prod.fst).Perm
        ((((base.filter fun f => f.flags ≠ 0).map Resend.checkpoint) ++ st'.timers.map Prod.fst) ++
          (q.filter fun f => f.flags ≠ 0).map Resend.checkpoint) := by
      rw [List.append_assoc, List.append_assoc]
      exact List.Perm.append_left _ List.perm_append_comm
    rw [hperm.nodup_iff, List.nodup_append]
    exact ⟨hold, hnew, fun a ha b hb hab => hdis a ha (by rw [hab]; exact hb)⟩
  · intro f hf hz
    rw [htr]
    rw [hres] at hf
    rcases List.mem_append.1 hf with hf | hf
    · exact h.queued f (hbase.subset hf) hz
    · have : f.checkpoint ∉ issued.map Resend.checkpoint := fun hc =>
        hnd3 _ hc f.checkpoint (List.mem_map.2 ⟨f, by simp [hf, hz], rfl⟩) rfl
      rw [h.fresh _ this, hp.fresh f hf]
      omega
  · intro t ht
    rw [htr]
    exact h.running t (htim.subset ht)
  · intro c; rw [htr]; exact h.bound c
  · intro r hr
    rcases List.mem_append.1 hr with hr | hr
    · obtain ⟨c, k⟩ := h.exhausted r hr
      exact ⟨c, by rw [htr]; exact k⟩
    · obtain ⟨c, k⟩ := hex r hr
      exact ⟨c, by rw [htr]; exact k⟩
  · intro g hg
    rcases List.mem_append.1 hg with hg | hg
    · rcases h.alive g hg with k | k
      · exact hal g hg k
      · exact .inr (k.mono e hdn)
    · left
      rw [List.mem_filter, decide_eq_true_eq] at hg
      exact mem_keys.2 (.inl ⟨g, by rw [hres]; simp [hg.1], hg.2, rfl⟩)

theorem transmissions_one (s : Seg) (e : Eff) (rest : List Eff) (hseg : segments (e :: rest) = [s])
    (n : Nat × Nat) (hn : s.checkpoint = some n) (c : Nat) :
    transmissions (e :: rest) c = if c = n.1 then 1 else 0 := by
  unfold transmissions
  rw [hseg, List.countP_singleton, hn]
  by_cases h : c = n.1
  · simp [h]
  · have : ¬ n.1 = c := fun k => h k.symm
    simp [h, this]

theorem startTimer_new {timers : List (Nat × Resend)} {f : Resend}
    (h : f.checkpoint ∉ timers.map Prod.fst) : startTimer timers f = timers ++ [(f.checkpoint, f)] := by
  unfold startTimer
  rw [if_neg]
  intro ha
  rw [List.any_eq_true] at ha
  obtain ⟨t, h1, h2⟩ := ha
  exact h (List.mem_map.2 ⟨t, h1, by simpa using h2⟩)

/-- A checkpoint of the first pass. -/
theorem Ledger.firstCheckpoint {cfg : Cfg} {s0 : Nat} {evs : List Event} {st st' : State}
    {effs rest : List Eff} {issued : List Resend} {s : Seg} (h : Ledger cfg s0 evs st effs issued)
    (hi : Inv cfg st) (hev : evs.length + 1 ≤ 2 ^ 64)
    (hcp : s.checkpoint = some (st.nextCsn, 0))
    (hok : (⟨s.offset, s.length, st.nextCsn, 0, s.flags, 1⟩ : Resend).Ok cfg) (hfl : s.flags ≠ 0)
    (hres : st'.resend = st.resend)
    (htim : st'.timers = startTimer st.timers ⟨s.offset, s.length, st.nextCsn, 0, s.flags, 1⟩)
    (hcsn : st'.nextCsn = (st.nextCsn + 1) % U64) (hpend : st'.pending = st.pending)
    (hseg : segments (.first s :: rest) = [s]) (hdel : ∀ r, Eff.delete true r ∉ rest)
    (hdn : st.didNotify = true → st'.didNotify = true) :
    Ledger cfg s0 (evs ++ [.first]) st' (effs ++ .first s :: rest)
      (issued ++ [⟨s.offset, s.length, st.nextCsn, 0, s.flags, 1⟩]) := by
  generalize hf : (⟨s.offset, s.length, st.nextCsn, 0, s.flags, 1⟩ : Resend) = f at *
  have hfc : f.checkpoint = st.nextCsn := by rw [← hf]
  have hcount := h.count
  have hser : [f].map Resend.checkpoint =
      (List.range 1).map fun i => ((s0 + issued.length) % U64 + i) % U64 := by
    simp [hfc, h.next]
  have hall := issue_serials h.csns hser
  have hnd := serials_nodup s0 (issued ++ [f]).length (by simp; omega)
  rw [← hall, List.map_append, List.nodup_append] at hnd
  obtain ⟨-, -, hnd3⟩ := hnd
  have hnew : f.checkpoint ∉ issued.map Resend.checkpoint := fun hc =>
    hnd3 _ hc f.checkpoint (by simp) rfl
  have hnk : f.checkpoint ∉ LtpSender.keys st := fun hc => hnew (h.keys_issued hi _ hc)
  have htim' : st'.timers = st.timers ++ [(f.checkpoint, f)] := by
    rw [htim]
    apply startTimer_new
    intro hc
    exact hnk (List.mem_append_right _ hc)
  have htr : ∀ c, transmissions (effs ++ .first s :: rest) c =
      transmissions effs c + if c = f.checkpoint then 1 else 0 := fun c => by
    rw [transmissions_append, transmissions_one s _ _ hseg _ hcp, hfc]
  have htro : ∀ c ∈ LtpSender.keys st, transmissions (effs ++ .first s :: rest) c =
      transmissions effs c := fun c hc => by
    rw [htr, if_neg (fun k => hnk (by rw [← k]; exact hc))]; rfl
  have hkeys : LtpSender.keys st' = LtpSender.keys st ++ [f.checkpoint] := by
    simp only [LtpSender.keys, hres, htim', List.map_append, List.map_cons, List.map_nil,
      List.append_assoc]
  refine ⟨hall, ?_, ?_, ?_, ?_, ?_, ?_, ?_, ?_, ?_, ?_, ?_, ?_⟩
  · rw [hcsn, h.next, List.length_append, List.length_singleton, Nat.mod_add_mod, Nat.add_assoc]
  · rw [hpend, List.length_append, List.length_append, List.length_singleton, List.length_singleton]
    omega
  · intro g hg
    rcases List.mem_append.1 hg with hg | hg
    · exact h.good g hg
    · rw [List.mem_singleton] at hg; subst hg; exact ⟨hok, by rw [← hf]; exact hfl⟩
  · intro g hg hz
    rw [hres] at hg
    obtain ⟨g', k1, k2⟩ := h.resend g hg hz
    exact ⟨g', by simp [k1], k2⟩
  · intro t ht
    rw [htim'] at ht
    rcases List.mem_append.1 ht with ht | ht
    · obtain ⟨g', k1, k2⟩ := h.timers t ht
      exact ⟨g', by simp [k1], k2⟩
    · rw [List.mem_singleton] at ht
      subst ht
      exact ⟨f, by simp, rfl, rfl, rfl, rfl, rfl⟩
  · intro t ht m hm
    rw [segments_append, hseg] at ht
    rcases List.mem_append.1 ht with ht | ht
    · obtain ⟨g', k1, k2⟩ := h.sent t ht m hm
      exact ⟨g', by simp [k1], k2⟩
    · rw [List.mem_singleton] at ht
      subst ht
      rw [hcp, Option.some.injEq] at hm
      subst hm
      exact ⟨f, by simp, hfc, by rw [← hf], by rw [← hf], by rw [← hf], by rw [← hf]⟩
  · rw [hkeys, List.nodup_append]
    refine ⟨h.keys, by simp, fun a ha b hb hab => hnk ?_⟩
    rw [List.mem_singleton] at hb
    rw [← hb, ← hab]; exact ha
  · intro g hg hz
    rw [hres] at hg
    rw [htro _ (mem_keys.2 (.inl ⟨g, hg, hz, rfl⟩))]
    exact h.queued g hg hz
  · intro t ht
    rw [htim'] at ht
    rcases List.mem_append.1 ht with ht | ht
    · rw [htro _ (mem_keys.2 (.inr ⟨t.2, ht⟩))]
      exact h.running t ht
    · rw [List.mem_singleton] at ht
      subst ht
      rw [htr, h.fresh _ hnew, if_pos rfl, ← hf]
      exact ⟨rfl, by simp⟩
  · intro c
    rw [htr]
    split
    · rename_i hc
      rw [hc, h.fresh _ hnew]; omega
    · exact h.bound c
  · intro r hr
    rcases List.mem_append.1 hr with hr | hr
    · obtain ⟨c, k⟩ := h.exhausted r hr
      refine ⟨c, ?_⟩
      rw [htr, k, if_neg]
      · intro hc
        rw [hc, h.fresh _ hnew] at k
        omega
    · rcases List.mem_cons.1 hr with hr | hr
      · cases hr
      · exact absurd hr (hdel r)
  · intro g hg
    rcases List.mem_append.1 hg with hg | hg
    · rcases h.alive g hg with k | k
      · left; rw [hkeys]; exact List.mem_append_left _ k
      · exact .inr (k.mono _ hdn)
    · left
      rw [List.mem_singleton] at hg
      rw [hkeys, hg]
      simp

/-- A queued checkpoint goes out. -/
theorem Ledger.send {cfg : Cfg} {s0 : Nat} {evs : List Event} {st : State} {effs : List Eff}
    {issued : List Resend} {f : Resend} {rest : List Resend} (h : Ledger cfg s0 evs st effs issued)
    (hr : st.resend = f :: rest) (hz : f.flags ≠ 0) :
    Ledger cfg s0 (evs ++ [.next]) { st with
        resend := rest
        timers := startTimer st.timers f } (effs ++ [.again (segOf cfg f)]) issued := by
  have hkst : LtpSender.keys st = f.checkpoint ::
      ((rest.filter fun f => f.flags ≠ 0).map Resend.checkpoint ++ st.timers.map Prod.fst) := by
    rw [LtpSender.keys, hr, List.filter_cons_of_pos (by simpa using hz)]
    rfl
  have hnd := h.keys
  rw [hkst, List.nodup_cons] at hnd
  have hcp : (segOf cfg f).checkpoint = some (f.checkpoint, f.report) := by
    simp only [segOf, hz, ne_eq, not_false_eq_true, if_true]
  have htim : startTimer st.timers f = st.timers ++ [(f.checkpoint, f)] :=
    startTimer_new fun hc => hnd.1 (List.mem_append_right _ hc)
  have htr : ∀ c, transmissions (effs ++ [.again (segOf cfg f)]) c =
      transmissions effs c + if c = f.checkpoint then 1 else 0 := fun c => by
    rw [transmissions_append, transmissions_one (segOf cfg f) _ _ rfl _ hcp]
  obtain ⟨hq1, hq2⟩ := h.queued f (by rw [hr]; simp) hz
  have htro : ∀ c, c ≠ f.checkpoint → transmissions (effs ++ [.again (segOf cfg f)]) c =
      transmissions effs c := fun c hc => by
    rw [htr, if_neg hc]; rfl
  refine ⟨h.csns, h.next, ?_, h.good, ?_, ?_, ?_, ?_, ?_, ?_, ?_, ?_, ?_⟩
  · have := h.count
    simp only [List.length_append, List.length_singleton]
    omega
  · intro g hg; exact h.resend g (by rw [hr]; exact List.mem_cons_of_mem _ hg)
  · intro t ht
    rcases startTimer_mem ht with ht | rfl
    · exact h.timers t ht
    · exact h.resend f (by rw [hr]; simp) hz
  · intro t ht m hm
    rw [segments_append] at ht
    rcases List.mem_append.1 ht with ht | ht
    · exact h.sent t ht m hm
    · have : t = segOf cfg f := by simpa [segments] using ht
      subst this
      rw [hcp, Option.some.injEq] at hm
      subst hm
      obtain ⟨g, k1, k2⟩ := h.resend f (by rw [hr]; simp) hz
      exact ⟨g, k1, k2.2.2.1.symm, k2.2.2.2.1.symm, k2.2.2.2.2.symm, k2.1.symm, k2.2.1.symm⟩
  · simp only [LtpSender.keys]
    rw [htim, List.map_append, ← List.append_assoc, List.nodup_append]
    refine ⟨hnd.2, by simp, fun a ha b hb hab => hnd.1 ?_⟩
    simp only [List.map_cons, List.map_nil, List.mem_singleton] at hb
    rw [← hb, ← hab]
    exact ha
  · intro g hg hgz
    have hne : g.checkpoint ≠ f.checkpoint := fun hc => hnd.1 (List.mem_append_left _
      (List.mem_map.2 ⟨g, List.mem_filter.2 ⟨hg, by simpa using hgz⟩, hc⟩))
    rw [htro _ hne]
    exact h.queued g (by rw [hr]; exact List.mem_cons_of_mem _ hg) hgz
  · intro t ht
    simp only at ht
    rw [htim] at ht
    rcases List.mem_append.1 ht with ht | ht
    · have hne : t.1 ≠ f.checkpoint := fun hc => hnd.1 (List.mem_append_right _
        (List.mem_map.2 ⟨t, ht, hc⟩))
      rw [htro _ hne]
      exact h.running t ht
    · rw [List.mem_singleton] at ht
      subst ht
      rw [htr, if_pos rfl]
      exact ⟨hq1, hq2⟩
  · intro c
    rw [htr]
    split
    · rename_i hc; rw [hc]; omega
    · exact h.bound c
  · intro r hr'
    rcases List.mem_append.1 hr' with hr' | hr'
    · obtain ⟨c, k⟩ := h.exhausted r hr'
      refine ⟨c, ?_⟩
      rw [htro _ ?_]
      · exact k
      · intro hc; rw [hc] at k; omega
    · simp at hr'
  · intro g hg
    rcases h.alive g hg with k | k
    · left
      rw [hkst] at k
      simp only [LtpSender.keys]
      rw [htim, List.map_append]
      rcases List.mem_cons.1 k with k | k
      · rw [k]; simp
      · rcases List.mem_append.1 k with k | k
        · exact List.mem_append_left _ k
        · exact List.mem_append_right _ (List.mem_append_left _ k)
    · exact .inr (k.mono _ fun h => h)

/-- A timer runs out and its checkpoint is queued again. -/
theorem Ledger.retry {cfg : Cfg} {s0 : Nat} {evs : List Event} {st : State} {effs : List Eff}
    {issued : List Resend} {csn : Nat} {f : Resend} (h : Ledger cfg s0 evs st effs issued)
    (hi : Inv cfg st) (hm : (csn, f) ∈ st.timers) (hle : f.retry ≤ cfg.maxRetries) :
    Ledger cfg s0 (evs ++ [.checkpointExpired csn]) { st with
        timers := st.timers.filter fun t => t.1 ≠ csn
        resend := st.resend ++ [{ f with retry := f.retry + 1 }] } (effs ++ [.producible]) issued := by
  obtain ⟨hfo, hfz, hfc⟩ := hi.timers _ hm
  simp only at hfo hfz hfc
  obtain ⟨hr1, hr2⟩ := h.running _ hm
  simp only at hr1 hr2
  have htr : ∀ c, transmissions (effs ++ [.producible]) c = transmissions effs c := fun c => by
    rw [transmissions_append]; rfl
  have hnd := h.keys
  rw [LtpSender.keys, List.nodup_append] at hnd
  obtain ⟨n1, n2, n3⟩ := hnd
  refine ⟨h.csns, h.next, ?_, h.good, ?_, ?_, ?_, ?_, ?_, ?_, ?_, ?_, ?_⟩
  · have := h.count
    simp only [List.length_append, List.length_singleton]
    omega
  · intro g hg hz
    rcases List.mem_append.1 hg with hg | hg
    · exact h.resend g hg hz
    · rw [List.mem_singleton] at hg
      subst hg
      obtain ⟨g, k1, k2⟩ := h.timers _ hm
      exact ⟨g, k1, k2.1, k2.2.1, k2.2.2.1, k2.2.2.2.1, k2.2.2.2.2⟩
  · intro t ht; exact h.timers t (List.mem_filter.1 ht).1
  · intro t ht m hm
    rw [segments_append] at ht
    rcases List.mem_append.1 ht with ht | ht
    · exact h.sent t ht m hm
    · simp [segments] at ht
  · simp only [LtpSender.keys]
    rw [List.filter_append, List.map_append,
      List.filter_cons_of_pos (by simpa using hfz)]
    simp only [List.filter_nil, List.map_cons, List.map_nil, hfc]
    rw [List.append_assoc, List.nodup_append]
    refine ⟨n1, ?_, ?_⟩
    · rw [List.singleton_append, List.nodup_cons]
      refine ⟨?_, n2.sublist (List.filter_sublist.map _)⟩
      intro hc
      obtain ⟨t, k1, k2⟩ := List.mem_map.1 hc
      have := (List.mem_filter.1 k1).2
      simp only [ne_eq, decide_not, Bool.not_eq_eq_eq_not, Bool.not_true, decide_eq_false_iff_not] at this
      exact this k2
    · intro a ha b hb
      rcases List.mem_append.1 hb with hb | hb
      · rw [List.mem_singleton] at hb
        rw [hb]
        exact n3 a ha csn (List.mem_map.2 ⟨_, hm, rfl⟩)
      · exact n3 a ha b ((List.filter_sublist.map _).subset hb)
  · intro g hg hz
    rw [htr]
    rcases List.mem_append.1 hg with hg | hg
    · exact h.queued g hg hz
    · rw [List.mem_singleton] at hg
      subst hg
      simp only [hfc]
      omega
  · intro t ht
    rw [htr]
    exact h.running t (List.mem_filter.1 ht).1
  · intro c; rw [htr]; exact h.bound c
  · intro r hr
    rcases List.mem_append.1 hr with hr | hr
    · obtain ⟨c, k⟩ := h.exhausted r hr
      exact ⟨c, by rw [htr]; exact k⟩
    · simp at hr
  · intro g hg
    rcases h.alive g hg with k | k
    · left
      rcases mem_keys.1 k with ⟨f', k1, k2, k3⟩ | ⟨f', k1⟩
      · exact mem_keys.2 (.inl ⟨f', List.mem_append_left _ k1, k2, k3⟩)
      · by_cases hc : g.checkpoint = csn
        · refine mem_keys.2 (.inl ⟨{ f with retry := f.retry + 1 }, by simp, hfz, ?_⟩)
          rw [hc]; exact hfc
        · exact mem_keys.2 (.inr ⟨f', List.mem_filter.2 ⟨k1, by simpa using hc⟩⟩)
    · exact .inr (k.mono _ fun h => h)

theorem filter_timers_keys {st st' : State} {csn : Nat} (hr : st'.resend = st.resend)
    (ht : st'.timers = st.timers.filter fun t => t.1 ≠ csn) (c : Nat) (hc : c ∈ keys st)
    (hne : c ≠ csn) : c ∈ keys st' := by
  rcases mem_keys.1 hc with ⟨f', k1, k2, k3⟩ | ⟨f', k1⟩
  · exact mem_keys.2 (.inl ⟨f', by rw [hr]; exact k1, k2, k3⟩)
  · exact mem_keys.2 (.inr ⟨f', by rw [ht]; exact List.mem_filter.2 ⟨k1, by simpa using hne⟩⟩)

theorem find_unique {timers : List (Nat × Resend)} (h : (timers.map Prod.fst).Nodup) {c : Nat}
    {f : Resend} (hm : (c, f) ∈ timers) : timers.find? (fun t => t.1 == c) = some (c, f) := by
  induction timers with
  | nil => simp at hm
  | cons t ts ih =>
    rw [List.map_cons, List.nodup_cons] at h
    rcases List.mem_cons.1 hm with rfl | hm
    · simp
    · rw [List.find?_cons_of_neg]
      · exact ih h.2 hm
      · intro hc
        simp only [beq_iff_eq] at hc
        exact h.1 (by rw [hc]; exact List.mem_map.2 ⟨_, hm, rfl⟩)

theorem ledger_step {cfg : Cfg} (hc : cfg.Sane) {s0 : Nat} {evs : List Event} {st st' : State}
    {effs effs' : List Eff} {issued : List Resend} {e : Event} (hst : Story cfg evs st effs)
    (h : Ledger cfg s0 evs st effs issued) (hev : evs.length + 1 ≤ 2 ^ 64) (he : e.Fair cfg)
    (hstep : step cfg st e = some (st', effs')) :
    ∃ issued', Ledger cfg s0 (evs ++ [e]) st' (effs ++ effs') issued' := by
  have hi := hst.inv
  have hsame : ∀ (e : Event), Ledger cfg s0 (evs ++ [e]) st (effs ++ []) (issued ++ []) := fun e =>
    h.grow (e := e) (q := []) (base := st.resend) hi hev (by simp) (List.Sublist.refl _)
      (List.Sublist.refl _) (push_nil _ _)
      (by rw [Nat.add_zero]; exact (Nat.mod_eq_of_lt hi.csn).symm) (by omega)
      (by simp [segments]) (by simp) (fun h => h) (fun g _ k => .inl k)
  cases e with
  | first =>
    rcases firstPass_spec cfg hc st hi with ⟨-, k⟩ | ⟨hlt, st1, s, st2, tail, h1, h2, k⟩ <;>
      rw [step, k] at hstep <;> simp only [Option.some.injEq, Prod.mk.injEq] at hstep <;>
      obtain ⟨rfl, rfl⟩ := hstep
    · exact ⟨_, hsame _⟩
    · have hseg : segments (.first s :: tail) = [s] := by
        rcases h2 with ⟨-, -, rfl⟩ | ⟨-, -, -, rfl⟩ | ⟨-, -, -, rfl⟩
        · rfl
        · split <;> rfl
        · rfl
      have hdel : ∀ r, Eff.delete true r ∉ tail := by
        intro r
        rcases h2 with ⟨-, -, rfl⟩ | ⟨-, -, -, rfl⟩ | ⟨-, -, -, rfl⟩
        · simp
        · split <;> simp
        · simp
      have hfr : st2.resend = st1.resend ∧ st2.timers = st1.timers ∧ st2.nextCsn = st1.nextCsn ∧
          st2.pending = st1.pending ∧ (st1.didNotify = true → st2.didNotify = true) := by
        rcases h2 with ⟨-, rfl, -⟩ | ⟨-, -, rfl, -⟩ | ⟨-, -, rfl, -⟩ <;> simp
      obtain ⟨f1, f2, f3, f4, f5⟩ := hfr
      rcases h1.frame with ⟨hncp, hf⟩ | ⟨hcp, hser, hok, hfl, hf⟩
      · have g1 : st1.resend = st.resend := by rw [hf]
        have g2 : st1.timers = st.timers := by rw [hf]
        have g3 : st1.nextCsn = st.nextCsn := by rw [hf]
        have g4 : st1.pending = st.pending := by rw [hf]
        have g5 : st1.didNotify = st.didNotify := by rw [hf]
        refine ⟨_, h.grow (q := []) (base := st.resend) (n := 0) hi hev (by simp [f1, g1])
          (List.Sublist.refl _) (by rw [f2, g2]) (push_nil _ _)
          (by rw [f3, g3, Nat.add_zero]; exact (Nat.mod_eq_of_lt hi.csn).symm)
          (by rw [f4, g4]; omega) ?_ ?_ (fun h => f5 (by rw [g5]; exact h)) ?_⟩
        · intro t ht
          rw [hseg, List.mem_singleton] at ht
          subst ht
          have hmod := fun (hr : st.index < cfg.red) (hp : cfg.period ≠ 0) =>
            (mod_step st.counter cfg.period (firstSegments effs).length (by omega) (hst.counter hr hp)
              (hi.counter hp).1).1
          have hok := h1.ok (firstSegments effs).length hmod
          cases hck : t.checkpoint with
          | none => rfl
          | some n => exact absurd (hok.serials n hck).1 hncp
        · intro r hr
          rcases List.mem_cons.1 hr with hr | hr
          · cases hr
          · exact absurd hr (hdel r)
        · intro g _ hk
          left
          simpa only [LtpSender.keys, f1, f2, g1, g2] using hk
      · have g1 : st1.resend = st.resend := by rw [hf]
        have g2 : st1.timers = startTimer st.timers ⟨s.offset, s.length, st.nextCsn, 0, s.flags, 1⟩ := by
          rw [hf]
        have g3 : st1.nextCsn = (st.nextCsn + 1) % U64 := by rw [hf]
        have g4 : st1.pending = st.pending := by rw [hf]
        have g5 : st1.didNotify = st.didNotify := by rw [hf]
        exact ⟨_, h.firstCheckpoint hi hev hser hok hfl (by rw [f1, g1]) (by rw [f2, g2])
          (by rw [f3, g3]) (by rw [f4, g4]) hseg hdel (fun h => f5 (by rw [g5]; exact h))⟩
  | next =>
    rcases nextCritical_spec cfg hc st hi with ⟨a, rest, -, k⟩ | ⟨-, hall, k⟩ | ⟨-, -, -, k⟩ |
      ⟨f, rest, -, -, hr, k⟩ <;> rw [step, k] at hstep <;>
      simp only [Option.some.injEq, Prod.mk.injEq] at hstep <;> obtain ⟨rfl, rfl⟩ := hstep
    · refine ⟨_, h.grow (q := []) (base := st.resend) (n := 0) hi hev (by simp)
        (List.Sublist.refl _) (List.Sublist.refl _) (push_nil _ _)
        (by rw [Nat.add_zero]; exact (Nat.mod_eq_of_lt hi.csn).symm) (by simp only; omega)
        (by simp [segments]) (by simp) (fun h => h) (fun g _ k => .inl k)⟩
    · refine ⟨_, h.grow (q := []) (base := []) (n := 0) hi hev (by simp)
        (List.nil_sublist _) (List.Sublist.refl _) (push_nil _ _)
        (by rw [Nat.add_zero]; exact (Nat.mod_eq_of_lt hi.csn).symm) (by simp only; omega)
        (by simp [segments]) (by simp) (fun h => h) (fun g hg k => .inr (.inr (.inl ?_)))⟩
      intro x _ hx
      rw [claimed_not_report _ _ (by simp), ← hst.claimed]
      exact hi.allRed hall x (by have := (h.good g hg).1.inside; omega)
    · exact ⟨_, hsame _⟩
    · by_cases hz : f.flags = 0
      · simp only [hz, ne_eq, not_true_eq_false, if_false]
        refine ⟨_, h.grow (q := []) (base := rest) (n := 0) hi hev (by simp)
          (by rw [hr]; exact List.sublist_cons_self _ _) (List.Sublist.refl _) (push_nil _ _)
          (by rw [Nat.add_zero]; exact (Nat.mod_eq_of_lt hi.csn).symm) (by simp only; omega)
          ?_ (by simp) (fun h => h) (fun g hg k => .inl ?_)⟩
        · intro s hs
          have : s = segOf cfg f := by simpa [segments] using hs
          rw [this]
          simp [segOf, hz]
        · simp only [LtpSender.keys] at k ⊢
          rw [hr, List.filter_cons_of_neg (by simp [hz])] at k
          exact k
      · simp only [ne_eq, hz, not_false_eq_true, if_true]
        exact ⟨_, h.send hr hz⟩
  | report n c r =>
    obtain ⟨st2, effs2, k1, k2, k3⟩ := reportSegment_spec cfg hc st hi n c r he
    rw [step, k1] at hstep
    simp only [Option.some.injEq, Prod.mk.injEq] at hstep
    obtain ⟨rfl, rfl⟩ := hstep
    by_cases hs : n ∈ st.seen
    · obtain ⟨rfl, rfl⟩ := k2.known hs
      refine ⟨_, h.grow (q := []) (base := st.resend) (n := 0) hi hev (by simp)
        (List.Sublist.refl _) (List.Sublist.refl _) (push_nil _ _)
        (by rw [Nat.add_zero]; exact (Nat.mod_eq_of_lt hi.csn).symm) (by simp only; omega) ?_ ?_
        (fun h => h) (fun g _ k => .inl k)⟩
      · split <;> simp [segments]
      · intro r'; split <;> simp
    · obtain ⟨q, m, pend, le, all, hst2, hp, hpl, -, -, hdel⟩ := k2.fresh hs
      have g1 : st2.resend = st.resend ++ q := by rw [hst2]
      have g2 : st2.timers = if c ≠ 0 then st.timers.filter (fun t => t.1 ≠ c) else st.timers := by
        rw [hst2]
      have g3 : st2.nextCsn = (st.nextCsn + m) % U64 := by rw [hst2]
      have g4 : st2.pending = pend := by rw [hst2]
      have hsub : st2.timers.Sublist st.timers := by
        rw [g2]; split
        · exact List.filter_sublist
        · exact List.Sublist.refl _
      refine ⟨_, h.grow hi hev g1 (List.Sublist.refl _) hsub hp g3 (by rw [g4]; exact hpl) ?_ ?_ ?_ ?_⟩
      · rcases hdel with ⟨-, -, -, -, rfl⟩ | ⟨-, -, rfl⟩ <;> split <;> simp [segments]
      · intro r'
        rcases hdel with ⟨-, -, -, -, rfl⟩ | ⟨-, -, rfl⟩ <;> split <;> simp
      · intro hd
        rcases hdel with ⟨-, -, -, d, -⟩ | ⟨-, d, -⟩
        · exact d
        · rw [d]; exact hd
      · intro g hg hk
        by_cases hgc : g.checkpoint = c
        · right; left; exact ⟨n, r, by rw [hgc]; simp⟩
        · left
          rcases mem_keys.1 hk with ⟨f', k1, k2, k3⟩ | ⟨f', k1⟩
          · exact mem_keys.2 (.inl ⟨f', by rw [g1]; exact List.mem_append_left _ k1, k2, k3⟩)
          · refine mem_keys.2 (.inr ⟨f', ?_⟩)
            rw [g2]
            split
            · exact List.mem_filter.2 ⟨k1, by simpa using hgc⟩
            · exact k1
  | checkpointExpired csn =>
    simp only [step, Option.some.injEq] at hstep
    rcases checkpointExpired_spec cfg hc st hi csn with ⟨-, k⟩ | ⟨f, hm, -, ⟨-, hcov, k⟩ | ⟨hle, k⟩ | ⟨hle, k⟩⟩ <;>
      rw [k] at hstep <;> simp only [Prod.mk.injEq] at hstep <;> obtain ⟨rfl, rfl⟩ := hstep
    · exact ⟨_, hsame _⟩
    · refine ⟨_, h.grow (q := []) (base := st.resend) (n := 0) hi hev (by simp)
        (List.Sublist.refl _) List.filter_sublist (push_nil _ _)
        (by rw [Nat.add_zero]; exact (Nat.mod_eq_of_lt hi.csn).symm) (by simp only; omega)
        (by simp [segments]) (by simp) (fun h => h) (fun g hg k => ?_)⟩
      by_cases hgc : g.checkpoint = csn
      · obtain ⟨g', l1, l2⟩ := h.timers _ hm
        have hcount := h.count
        have hnd := serials_nodup s0 issued.length (by omega)
        rw [← h.csns] at hnd
        have hfc := (hi.timers _ hm).2.2
        simp only at hfc l2
        have : g = g' := List.inj_on_of_nodup_map hnd hg l1 (by rw [hgc, ← l2.2.2.1, hfc])
        subst this
        right; right; left
        intro x h1 h2
        rw [claimed_not_report _ _ (by simp), ← hst.claimed]
        exact hcov x (by rw [l2.1]; exact h1) (by rw [l2.1, l2.2.1]; exact h2)
      · exact .inl (filter_timers_keys (st := st) (by rfl) (by rfl) _ k hgc)
    · exact ⟨_, h.retry hi hm hle⟩
    · obtain ⟨r1, r2⟩ := h.running _ hm
      simp only at r1 r2
      refine ⟨_, h.grow (q := []) (base := st.resend) (n := 0) hi hev (by simp)
        (List.Sublist.refl _) List.filter_sublist (push_nil _ _)
        (by rw [Nat.add_zero]; exact (Nat.mod_eq_of_lt hi.csn).symm) (by simp only; omega) ?_ ?_
        (fun _ => rfl) (fun g _ k => .inr (.inr (.inr rfl)))⟩
      · split <;> simp [segments]
      · intro r' _
        exact ⟨csn, by omega⟩
  | delayExpired =>
    rcases delayExpired_spec cfg hc st hi with ⟨-, k⟩ | ⟨-, q, n, k, hp, hn, -⟩ <;> rw [step, k] at hstep <;>
      simp only [Option.some.injEq, Prod.mk.injEq] at hstep <;> obtain ⟨rfl, rfl⟩ := hstep
    · exact ⟨_, hsame _⟩
    · refine ⟨_, h.grow hi hev rfl (List.Sublist.refl _) (List.Sublist.refl _) hp rfl ?_ ?_ ?_ (fun h => h)
        (fun g _ k => .inl ?_)⟩
      · simp only [List.length_nil]; omega
      · split <;> simp [segments]
      · intro r'; split <;> simp
      · rcases mem_keys.1 k with ⟨f', k1, k2, k3⟩ | ⟨f', k1⟩
        · exact mem_keys.2 (.inl ⟨f', List.mem_append_left _ k1, k2, k3⟩)
        · exact mem_keys.2 (.inr ⟨f', k1⟩)

theorem ledger (cfg : Cfg) (hc : cfg.Sane) (serial : Nat) (hs : serial < 2 ^ 64) (evs : List Event)
    (h : Fair cfg evs) (hlen : evs.length ≤ 2 ^ 64) :
    ∃ st effs issued, run cfg (init cfg serial) evs = some (st, effs) ∧ Story cfg evs st effs ∧
      Ledger cfg serial evs st effs issued := by
  induction evs using List.reverseRecOn with
  | nil => exact ⟨_, _, _, rfl, init_story cfg serial hs, init_ledger cfg serial hs⟩
  | append_singleton evs e ih =>
    obtain ⟨h1, h2⟩ := h.last
    rw [List.length_append, List.length_singleton] at hlen
    obtain ⟨st, effs, issued, k1, k2, k3⟩ := ih h1 (by omega)
    obtain ⟨st', effs', k4, k5⟩ := story_step hc k2 e h2
    obtain ⟨issued', k6⟩ := ledger_step hc k2 k3 hlen h2 k4
    exact ⟨st', effs ++ effs', issued', by rw [run_snoc cfg _ _ _ _ _ k1, k4]; rfl, k5, k6⟩

/-! ### Emptying the queues -/

theorem idle (cfg : Cfg) (hc : cfg.Sane) (st : State) (hi : Inv cfg st) (hall : st.allRed = false)
    (h1 : st.acks = []) (h2 : st.resend = []) (k : Nat) :
    run cfg st (List.replicate k .next) = some (st, []) := by
  induction k with
  | zero => rfl
  | succ k ih =>
    have hd : step cfg st .next = some (st, []) := by
      rcases nextCritical_spec cfg hc st hi with ⟨a, rest, ha, h⟩ | ⟨-, hall', -⟩ | ⟨-, -, -, h⟩ |
        ⟨f, rest, ha, -, hr, h⟩
      · rw [h1] at ha; cases ha
      · rw [hall] at hall'; cases hall'
      · exact h
      · rw [h2] at hr; cases hr
    rw [List.replicate_succ, run, hd]
    simp only
    rw [ih]
    rfl

/-- When there is nothing else to do, what is queued is sent, and then nothing any more. -/
theorem drain (cfg : Cfg) (hc : cfg.Sane) (st : State) (hi : Inv cfg st) (hall : st.allRed = false) :
    ∃ st', ∀ k, st.acks.length + st.resend.length ≤ k → run cfg st (List.replicate k .next) =
      some (st', st.acks.map .ack ++ st.resend.map fun f => .again (segOf cfg f)) := by
  generalize hk : st.acks.length + st.resend.length = k
  induction k generalizing st with
  | zero =>
    have h1 : st.acks = [] := List.eq_nil_of_length_eq_zero (by omega)
    have h2 : st.resend = [] := List.eq_nil_of_length_eq_zero (by omega)
    exact ⟨st, fun k _ => by rw [idle cfg hc st hi hall h1 h2, h1, h2]; rfl⟩
  | succ k ih =>
    obtain ⟨st1, effs1, hs, hinv⟩ := step_inv cfg hc st hi .next trivial
    rcases nextCritical_spec cfg hc st hi with ⟨a, rest, ha, h⟩ | ⟨-, hall', -⟩ | ⟨ha, -, hr, -⟩ |
      ⟨f, rest, ha, -, hr, h⟩
    · rw [step, h] at hs
      simp only [Option.some.injEq, Prod.mk.injEq] at hs
      obtain ⟨rfl, rfl⟩ := hs
      obtain ⟨st', k1⟩ := ih _ hinv hall (by rw [ha] at hk; simp only [List.length_cons] at hk ⊢; omega)
      refine ⟨st', fun m hm => ?_⟩
      obtain ⟨m, rfl⟩ : ∃ m', m = m' + 1 := ⟨m - 1, by omega⟩
      rw [List.replicate_succ, run]
      have hd : step cfg st .next = _ := h
      rw [hd]
      simp only
      rw [k1 m (by omega), ha]
      rfl
    · rw [hall] at hall'; cases hall'
    · rw [ha, hr] at hk; simp at hk
    · rw [step, h] at hs
      simp only [Option.some.injEq, Prod.mk.injEq] at hs
      obtain ⟨rfl, rfl⟩ := hs
      obtain ⟨st', k1⟩ := ih _ hinv hall
        (by rw [hr] at hk; simp only [List.length_cons] at hk ⊢; omega)
      refine ⟨st', fun m hm => ?_⟩
      obtain ⟨m, rfl⟩ : ∃ m', m = m' + 1 := ⟨m - 1, by omega⟩
      rw [List.replicate_succ, run]
      have hd : step cfg st .next = _ := h
      rw [hd]
      simp only
      rw [k1 m (by omega)]
      simp only [ha, hr, List.map_nil, List.nil_append, List.map_cons, List.singleton_append]

end Hdtn.LtpSender
