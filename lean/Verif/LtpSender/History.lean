import Verif.LtpSender.Step
import Mathlib.Data.List.Induction

namespace Hdtn.LtpSender
open Hdtn.FragmentSet Hdtn.LtpReport
open Hdtn.LtpReceiver (Seg Reason)

/-! ### Vocabulary on longer histories -/

theorem firstSegments_append (a b : List Eff) :
    firstSegments (a ++ b) = firstSegments a ++ firstSegments b := List.filterMap_append

theorem segments_append (a b : List Eff) : segments (a ++ b) = segments a ++ segments b :=
  List.filterMap_append

theorem deletions_append (a b : List Eff) : deletions (a ++ b) = deletions a + deletions b :=
  List.countP_append

theorem transmissions_append (a b : List Eff) (csn : Nat) :
    transmissions (a ++ b) csn = transmissions a csn + transmissions b csn := by
  unfold transmissions; rw [segments_append, List.countP_append]

theorem chain_append (a b c : Nat) (x y : List Seg) (h : Chain a b x) (k : Chain b c y) :
    Chain a c (x ++ y) := by
  induction x generalizing a with
  | nil => simp only [Chain] at h; subst h; exact k
  | cons s ss ih => exact ⟨h.1, ih _ h.2⟩

theorem accepted_snoc (evs : List Event) (e : Event) (r : Report) :
    Accepted (evs ++ [e]) r ↔
      Accepted evs r ∨ ∃ n c, e = .report n c r ∧ ∀ c' r', Event.report n c' r' ∉ evs := by
  constructor
  · rintro ⟨pre, n, c, post, h, hn⟩
    rcases List.eq_nil_or_concat post with rfl | ⟨post', e', rfl⟩
    · obtain ⟨h1, h2⟩ := List.append_inj' h rfl
      simp only [List.cons.injEq, and_true] at h2
      subst h1
      exact .inr ⟨n, c, h2, hn⟩
    · rw [List.concat_eq_append, ← List.cons_append, ← List.append_assoc] at h
      obtain ⟨h1, -⟩ := List.append_inj' h rfl
      exact .inl ⟨pre, n, c, post', h1, hn⟩
  · rintro (⟨pre, n, c, post, h, hn⟩ | ⟨n, c, rfl, hn⟩)
    · exact ⟨pre, n, c, post ++ [e], by rw [h]; simp, hn⟩
    · exact ⟨evs, n, c, [], rfl, hn⟩

theorem claimed_snoc (evs : List Event) (e : Event) (x : Nat) :
    Claimed (evs ++ [e]) x ↔ Claimed evs x ∨
      ∃ n c r, e = .report n c r ∧ (∀ c' r', Event.report n c' r' ∉ evs) ∧ r.Claims x := by
  unfold Claimed
  constructor
  · rintro ⟨r, h, hx⟩
    rcases (accepted_snoc evs e r).1 h with h | ⟨n, c, h1, h2⟩
    · exact .inl ⟨r, h, hx⟩
    · exact .inr ⟨n, c, r, h1, h2, hx⟩
  · rintro (⟨r, h, hx⟩ | ⟨n, c, r, h1, h2, hx⟩)
    · exact ⟨r, (accepted_snoc evs e r).2 (.inl h), hx⟩
    · exact ⟨r, (accepted_snoc evs e r).2 (.inr ⟨n, c, h1, h2⟩), hx⟩

theorem claimed_not_report (evs : List Event) (e : Event) (he : ∀ n c r, e ≠ .report n c r) (x : Nat) :
    Claimed (evs ++ [e]) x ↔ Claimed evs x := by
  rw [claimed_snoc]
  constructor
  · rintro (h | ⟨n, c, r, h, -⟩)
    · exact h
    · exact absurd h (he n c r)
  · exact .inl

/-! ### What a history of a session looks like -/

/-- `true` for the notice that the first pass is complete. -/
def isTransmitted : Eff → Bool
  | .transmitted => true
  | _ => false

structure Story (cfg : Cfg) (evs : List Event) (st : State) (effs : List Eff) : Prop where
  inv : Inv cfg st
  chain : Chain 0 st.index (firstSegments effs)
  first : ∀ i s, (firstSegments effs)[i]? = some s → FirstOk cfg i s
  counter : st.index < cfg.red → cfg.period ≠ 0 →
    st.counter + (firstSegments effs).length % cfg.period = cfg.period
  transmitted : effs.countP isTransmitted =
    if st.index = cfg.block.length ∧ 1 ≤ cfg.block.length then 1 else 0
  seen : ∀ n, n ∈ st.seen ↔ ∃ c r, Event.report n c r ∈ evs
  claimed : ∀ x, Covers st.acked x ↔ Claimed evs x
  segs : ∀ s ∈ segments effs, SegOk cfg s
  deletes : deletions effs = if st.didNotify then 1 else 0
  success : ∀ r, Eff.delete false r ∈ effs →
    r = .reserved ∧ st.index = cfg.block.length ∧ ∀ x < cfg.red, Claimed evs x
  failure : ∀ r, Eff.delete true r ∈ effs → r = .rlexc
  complete : st.index = cfg.block.length → 1 ≤ cfg.block.length →
    (∀ x < cfg.red, Claimed evs x) → st.didNotify = true
  progress : st.index < cfg.block.length → (firstSegments effs).length = evs.count .first

theorem init_story (cfg : Cfg) (serial : Nat) (hs : serial < 2 ^ 64) :
    Story cfg [] (init cfg serial) [] where
  inv := init_inv cfg serial hs
  chain := rfl
  first := by simp [firstSegments]
  counter := by simp [init, firstSegments]
  transmitted := by
    rw [if_neg]
    · rfl
    · simp only [init]; omega
  seen := by simp [init]
  claimed := fun x => by
    constructor
    · intro h; exact absurd h (covers_nil x)
    · rintro ⟨r, ⟨pre, n, c, post, h, -⟩, -⟩; simp at h
  segs := by simp [segments]
  deletes := by simp [init, deletions]
  success := by simp
  failure := by simp
  complete := by
    intro h1 h2
    simp only [init] at h1
    omega
  progress := by simp [firstSegments]

/-- Steps that neither send data of the first pass nor hear of claims. -/
theorem Story.quiet {cfg : Cfg} {evs : List Event} {st st' : State} {effs effs' : List Eff}
    {e : Event} (h : Story cfg evs st effs) (hi : Inv cfg st') (he : ∀ n c r, e ≠ .report n c r)
    (hfirst : e = .first → st.index = cfg.block.length) (hidx : st'.index = st.index) (hcnt : st'.counter = st.counter) (hseen : st'.seen = st.seen)
    (hack : st'.acked = st.acked) (hf : firstSegments effs' = []) (ht : effs'.countP isTransmitted = 0)
    (hs : ∀ s ∈ segments effs', SegOk cfg s)
    (hd : (deletions effs' = 0 ∧ st'.didNotify = st.didNotify) ∨
      (st.didNotify = false ∧ deletions effs' = 1 ∧ st'.didNotify = true))
    (hsucc : ∀ r, Eff.delete false r ∉ effs') (hfail : ∀ r, Eff.delete true r ∈ effs' → r = .rlexc) :
    Story cfg (evs ++ [e]) st' (effs ++ effs') where
  inv := hi
  chain := by rw [firstSegments_append, hf, List.append_nil, hidx]; exact h.chain
  first := by rw [firstSegments_append, hf, List.append_nil]; exact h.first
  counter := by rw [firstSegments_append, hf, List.append_nil, hidx, hcnt]; exact h.counter
  transmitted := by rw [List.countP_append, ht, hidx]; exact h.transmitted
  seen := fun n => by
    rw [hseen, h.seen n]
    constructor
    · rintro ⟨c, r, hm⟩; exact ⟨c, r, by simp [hm]⟩
    · rintro ⟨c, r, hm⟩
      rcases List.mem_append.1 hm with hm | hm
      · exact ⟨c, r, hm⟩
      · exact absurd (List.mem_singleton.1 hm).symm (he n c r)
  claimed := fun x => by rw [hack, h.claimed x, claimed_not_report evs e he]
  segs := fun s hs' => by
    rw [segments_append] at hs'
    rcases List.mem_append.1 hs' with hs' | hs'
    · exact h.segs s hs'
    · exact hs s hs'
  deletes := by
    rw [deletions_append, h.deletes]
    rcases hd with ⟨h1, h2⟩ | ⟨h1, h2, h3⟩
    · rw [h1, h2]; omega
    · rw [h1, h2, h3]; simp
  success := fun r hm => by
    rcases List.mem_append.1 hm with hm | hm
    · obtain ⟨h1, h2, h3⟩ := h.success r hm
      exact ⟨h1, by rw [hidx]; exact h2, fun x hx => (claimed_not_report evs e he x).2 (h3 x hx)⟩
    · exact absurd hm (hsucc r)
  failure := fun r hm => by
    rcases List.mem_append.1 hm with hm | hm
    · exact h.failure r hm
    · exact hfail r hm
  complete := fun h1 h2 h3 => by
    have := h.complete (by rw [← hidx]; exact h1) h2
      (fun x hx => (claimed_not_report evs e he x).1 (h3 x hx))
    rcases hd with ⟨-, hd⟩ | ⟨-, -, hd⟩
    · rw [hd]; exact this
    · exact hd
  progress := fun hlt => by
    rw [hidx] at hlt
    rw [firstSegments_append, hf, List.append_nil, List.count_append, h.progress hlt,
      List.count_singleton, if_neg]
    · rfl
    · intro he'
      have := hfirst (by simpa using he')
      omega

theorem mod_step (c p k : Nat) (hp : 1 ≤ p) (h : c + k % p = p) (hc : 1 ≤ c) :
    ((c = 1 ↔ p ∣ k + 1)) ∧ (c = 1 → p + (k + 1) % p = p) ∧ (c ≠ 1 → c - 1 + (k + 1) % p = p) := by
  have hk := Nat.div_add_mod k p
  have hlt := Nat.mod_lt k hp
  have e : k + 1 = (k % p + 1) + p * (k / p) := by omega
  have e2 : (k + 1) % p = (k % p + 1) % p := by
    conv_lhs => rw [e]
    exact Nat.add_mul_mod_self_left _ _ _
  by_cases h1 : c = 1
  · have : k % p + 1 = p := by omega
    have e3 : (k + 1) % p = 0 := by rw [e2, this, Nat.mod_self]
    exact ⟨⟨fun _ => Nat.dvd_of_mod_eq_zero e3, fun _ => h1⟩, fun _ => by omega, fun h => absurd h1 h⟩
  · have e3 : (k + 1) % p = k % p + 1 := by rw [e2]; exact Nat.mod_eq_of_lt (by omega)
    refine ⟨⟨fun h => absurd h h1, fun h => ?_⟩, fun h => absurd h h1, fun _ => by omega⟩
    have := Nat.mod_eq_zero_of_dvd h
    omega

theorem Story.firstStep {cfg : Cfg} (hc : cfg.Sane) {evs : List Event} {st st1 st' : State}
    {effs tail : List Eff} {s : Seg} (h : Story cfg evs st effs) (hlt : st.index < cfg.block.length)
    (h1 : FirstStep cfg st st1 s) (h2 : FirstTail cfg st1 st' tail) :
    Story cfg (evs ++ [.first]) st' (effs ++ .first s :: tail) := by
  have hredlt : cfg.red < 2 ^ 64 := by have := hc.red; have := hc.block; omega
  have he : ∀ n c r, Event.first ≠ .report n c r := by simp
  obtain ⟨z1, z2, z3, z4, z5, z6, z7, z8⟩ := h1.size
  have hmod := fun (hr : st.index < cfg.red) (hp : cfg.period ≠ 0) =>
    mod_step st.counter cfg.period (firstSegments effs).length (by omega) (h.counter hr hp)
      (h.inv.counter hp).1
  have hok := h1.ok (firstSegments effs).length (fun hr hp => (hmod hr hp).1)
  have hinv1 := h1.inv h.inv hok
  have hidx : st'.index = st1.index ∧ st'.counter = st1.counter ∧ st'.seen = st1.seen ∧
      st'.acked = st1.acked := by
    rcases h2 with ⟨-, rfl, -⟩ | ⟨-, -, rfl, -⟩ | ⟨-, -, rfl, -⟩ <;> simp
  have htail : firstSegments (.first s :: tail) = [s] ∧ segments (.first s :: tail) = [s] := by
    rcases h2 with ⟨-, -, rfl⟩ | ⟨-, -, -, rfl⟩ | ⟨-, -, -, rfl⟩
    · exact ⟨rfl, rfl⟩
    · split <;> exact ⟨rfl, rfl⟩
    · exact ⟨rfl, rfl⟩
  have hclaim := fun x => claimed_not_report evs .first he x
  have hcov : ∀ x, Covers st1.acked x ↔ Claimed evs x := fun x => by rw [z2]; exact h.claimed x
  refine ⟨h2.inv hinv1, ?_, ?_, ?_, ?_, ?_, ?_, ?_, ?_, ?_, ?_, ?_, fun _ => ?_⟩
  · rw [firstSegments_append, htail.1]
    refine chain_append _ _ _ _ _ h.chain ⟨h1.offset, ?_⟩
    simp only [Chain]; rw [hidx.1]; omega
  · intro i t ht
    rw [firstSegments_append, htail.1] at ht
    by_cases hil : i < (firstSegments effs).length
    · rw [List.getElem?_append_left hil] at ht; exact h.first i t ht
    · rw [List.getElem?_append_right (by omega)] at ht
      have : i = (firstSegments effs).length := by
        by_contra hne
        have : i - (firstSegments effs).length ≥ [s].length := by simp; omega
        rw [List.getElem?_eq_none this] at ht
        cases ht
      subst this
      simp only [Nat.sub_self, List.getElem?_cons_zero, Option.some.injEq] at ht
      subst ht
      exact hok
  · intro hr hp
    rw [firstSegments_append, htail.1, hidx.2.1, List.length_append, List.length_singleton]
    have hr' : st.index < cfg.red := by rw [hidx.1] at hr; omega
    have hsr : s.IsRed := hok.red.2 (by rw [h1.offset]; exact hr')
    obtain ⟨m1, m2, m3⟩ := hmod hr' hp
    obtain ⟨c1, c2, -⟩ := h1.counter hp
    by_cases hone : st.counter = 1
    · rw [c1 hsr hone]; exact m2 hone
    · rw [c2 hsr hone]; exact m3 hone
  · have hz : ¬ (st.index = cfg.block.length ∧ 1 ≤ cfg.block.length) := by omega
    rw [List.countP_append, h.transmitted, hidx.1, if_neg hz]
    rcases h2 with ⟨g, -, rfl⟩ | ⟨g, -, -, rfl⟩ | ⟨g, -, -, rfl⟩
    · rw [if_neg (fun k => g k.1)]; rfl
    · have hy : st1.index = cfg.block.length ∧ 1 ≤ cfg.block.length := ⟨g, by omega⟩
      rw [if_pos hy]; cases st1.didNotify <;> rfl
    · have hy : st1.index = cfg.block.length ∧ 1 ≤ cfg.block.length := ⟨g, by omega⟩
      rw [if_pos hy]; rfl
  · intro n
    rw [hidx.2.2.1, z7, h.seen n]
    constructor
    · rintro ⟨c, r, hm⟩; exact ⟨c, r, by simp [hm]⟩
    · rintro ⟨c, r, hm⟩
      rcases List.mem_append.1 hm with hm | hm
      · exact ⟨c, r, hm⟩
      · simp at hm
  · intro x
    rw [hidx.2.2.2, hcov x, hclaim x]
  · intro t ht
    rw [segments_append, htail.2] at ht
    rcases List.mem_append.1 ht with ht | ht
    · exact h.segs t ht
    · rw [List.mem_singleton] at ht; subst ht; exact hok.seg hc
  · rw [deletions_append, h.deletes, ← z8]
    rcases h2 with ⟨-, rfl, rfl⟩ | ⟨-, -, rfl, rfl⟩ | ⟨-, -, rfl, rfl⟩
    · rfl
    · cases st1.didNotify <;> rfl
    · rfl
  · intro r hm
    rcases List.mem_append.1 hm with hm | hm
    · have := (h.success r hm).2.1; omega
    · rcases h2 with ⟨-, -, rfl⟩ | ⟨g, hd, rfl, rfl⟩ | ⟨-, -, -, rfl⟩
      · simp at hm
      · have : r = .reserved := by
          split at hm <;> simp at hm
          exact hm
        refine ⟨this, g, fun x hx => (hclaim x).2 ((hcov x).1 ?_)⟩
        rcases hd with hd | hd
        · omega
        · exact redAcked_covers cfg _ hd hredlt x hx
      · simp at hm
  · intro r hm
    rcases List.mem_append.1 hm with hm | hm
    · exact h.failure r hm
    · rcases h2 with ⟨-, -, rfl⟩ | ⟨g, hd, rfl, rfl⟩ | ⟨-, -, -, rfl⟩
      · simp at hm
      · split at hm <;> simp at hm
      · simp at hm
  · intro k1 k2 k3
    rcases h2 with ⟨g, rfl, -⟩ | ⟨g, hd, rfl, -⟩ | ⟨g, hd, rfl, -⟩
    · exact absurd k1 g
    · rfl
    · exfalso
      apply hd
      by_cases hz : cfg.red = 0
      · exact .inl hz
      · right
        refine covers_redAcked cfg _ hinv1.acked hinv1.inside (by omega) hredlt fun x hx => ?_
        exact (hcov x).2 ((hclaim x).1 (k3 x hx))
  · rw [firstSegments_append, htail.1, List.length_append, List.count_append, h.progress hlt]
    rfl

theorem Story.reported {cfg : Cfg} (hc : cfg.Sane) {evs : List Event} {st st' : State}
    {effs effs' : List Eff} {n c : Nat} {r : Report} (h : Story cfg evs st effs)
    (hr : FairReport cfg r) (hinv : Inv cfg st') (h1 : Reported cfg st st' n c r effs') :
    Story cfg (evs ++ [.report n c r]) st' (effs ++ effs') := by
  have hredlt : cfg.red < 2 ^ 64 := by have := hc.red; have := hc.block; omega
  obtain ⟨-, -, -, hrange⟩ := fair_bounds hc hr
  obtain ⟨a1, a2, a3⟩ := C12_report_added st.acked h.inv.acked r hrange
  have hclaims : ∀ x, (∃ n' c' r', Event.report n c r = .report n' c' r' ∧
      (∀ c'' r'', Event.report n' c'' r'' ∉ evs) ∧ r'.Claims x) ↔ n ∉ st.seen ∧ r.Claims x := by
    intro x
    rw [h.seen n]
    constructor
    · rintro ⟨n', c', r', he, hn, hx⟩
      injection he with e1 e2 e3
      subst e1 e2 e3
      exact ⟨fun ⟨c'', r'', hm⟩ => hn c'' r'' hm, hx⟩
    · rintro ⟨hn, hx⟩
      exact ⟨n, c, r, rfl, fun c'' r'' hm => hn ⟨c'', r'', hm⟩, hx⟩
  have hframe : st'.index = st.index ∧ st'.counter = st.counter ∧ firstSegments effs' = [] ∧
      segments effs' = [] ∧ effs'.countP isTransmitted = 0 ∧ (∀ x, Eff.delete true x ∉ effs') ∧
      (∀ m, m ∈ st'.seen ↔ m = n ∨ m ∈ st.seen) ∧
      (∀ x, Covers st'.acked x ↔ Claimed (evs ++ [.report n c r]) x) ∧
      ((deletions effs' = 0 ∧ st'.didNotify = st.didNotify ∧ ∀ x, Eff.delete false x ∉ effs') ∨
       (deletions effs' = (if st.didNotify then 0 else 1) ∧ st'.didNotify = true ∧
         (∀ x, Eff.delete false x ∈ effs' → x = .reserved) ∧
         st.index = cfg.block.length ∧ ∀ x < cfg.red, Covers st'.acked x)) ∧
      (st.index = cfg.block.length → 1 ≤ cfg.block.length →
        (∀ x < cfg.red, Claimed (evs ++ [.report n c r]) x) → st'.didNotify = true) := by
    by_cases hs : n ∈ st.seen
    · obtain ⟨rfl, rfl⟩ := h1.known hs
      have hcl : ∀ x, Claimed (evs ++ [.report n c r]) x ↔ Claimed evs x := by
        intro x
        rw [claimed_snoc, hclaims x]
        constructor
        · rintro (h | ⟨h, -⟩)
          · exact h
          · exact absurd hs h
        · exact .inl
      refine ⟨rfl, rfl, ?_, ?_, ?_, ?_, ?_, ?_, .inl ⟨?_, rfl, ?_⟩, ?_⟩
      · split <;> rfl
      · split <;> rfl
      · split <;> rfl
      · intro x; split <;> simp
      · intro m
        constructor
        · exact .inr
        · rintro (rfl | h)
          · exact hs
          · exact h
      · intro x; rw [hcl x]; exact h.claimed x
      · split <;> rfl
      · intro x; split <;> simp
      · intro k1 k2 k3; exact h.complete k1 k2 fun x hx => (hcl x).1 (k3 x hx)
    · obtain ⟨q, m, pend, le, all, hst, hp, -, -, hall, hdel⟩ := h1.fresh hs
      have hidx : st'.index = st.index := by rw [hst]
      have hcnt : st'.counter = st.counter := by rw [hst]
      have hseen : st'.seen = n :: st.seen := by rw [hst]
      have hack : st'.acked = (addReport st.acked r).1 := by rw [hst]
      have hsal : st'.allRed = all := by rw [hst]
      have hcl : ∀ x, Covers st'.acked x ↔ Claimed (evs ++ [.report n c r]) x := by
        intro x
        rw [claimed_snoc, hclaims x, hack, a2 x, h.claimed x]
        constructor
        · rintro (h | h)
          · exact .inl h
          · exact .inr ⟨hs, h⟩
        · rintro (h | ⟨-, h⟩)
          · exact .inl h
          · exact .inr h
      have hm : ∀ k, k ∈ st'.seen ↔ k = n ∨ k ∈ st.seen := by
        intro k; rw [hseen, List.mem_cons]
      rcases hdel with ⟨d1, d2, d3, d4, rfl⟩ | ⟨d1, d2, rfl⟩
      · refine ⟨hidx, hcnt, ?_, ?_, ?_, ?_, hm, hcl, .inr ⟨?_, d4, ?_, d2, ?_⟩, fun _ _ _ => d4⟩
        · split <;> rfl
        · split <;> rfl
        · split <;> rfl
        · intro x; split <;> simp
        · split <;> rfl
        · intro x; split <;> simp
        · exact hinv.allRed (by rw [hsal]; exact d3)
      · refine ⟨hidx, hcnt, ?_, ?_, ?_, ?_, hm, hcl, .inl ⟨?_, d2, ?_⟩, ?_⟩
        · split <;> rfl
        · split <;> rfl
        · split <;> rfl
        · intro x; split <;> simp
        · split <;> rfl
        · intro x; split <;> simp
        · intro k1 k2 k3
          rw [d2]
          by_cases hnew : (addReport st.acked r).2 = true
          · exfalso
            apply d1
            refine ⟨hnew, k1, ?_⟩
            rw [hall, hnew, Bool.true_and, Bool.or_eq_true]
            by_cases hz : cfg.red = 0
            · -- the report lies inside an empty red part
              have := hr.1.1
              have := hr.2
              omega
            · right
              exact covers_redAcked cfg _ a1 (by rw [← hack]; exact hinv.inside) (by omega) hredlt
                fun x hx => by rw [← hack]; exact (hcl x).2 (k3 x hx)
          · refine h.complete k1 k2 fun x hx => ?_
            rw [← h.claimed x]
            by_contra hno
            apply hnew
            rw [a3]
            have hx' := (hcl x).2 (k3 x hx)
            rw [hack] at hx'
            rcases (a2 x).1 hx' with h' | h'
            · exact absurd h' hno
            · exact ⟨x, h', hno⟩
  obtain ⟨f1, f2, f3, f4, f5, f6, f7, f8, f9, f10⟩ := hframe
  have hmono : ∀ x, Claimed evs x → Claimed (evs ++ [.report n c r]) x :=
    fun x hx => (claimed_snoc _ _ _).2 (.inl hx)
  refine ⟨hinv, ?_, ?_, ?_, ?_, ?_, f8, ?_, ?_, ?_, ?_, ?_, fun hlt => ?_⟩
  · rw [firstSegments_append, f3, List.append_nil, f1]; exact h.chain
  · rw [firstSegments_append, f3, List.append_nil]; exact h.first
  · rw [firstSegments_append, f3, List.append_nil, f1, f2]; exact h.counter
  · rw [List.countP_append, f5, f1]; exact h.transmitted
  · intro m
    rw [f7 m, h.seen m]
    constructor
    · rintro (rfl | ⟨c', r', hm⟩)
      · exact ⟨c, r, by simp⟩
      · exact ⟨c', r', by simp [hm]⟩
    · rintro ⟨c', r', hm⟩
      rcases List.mem_append.1 hm with hm | hm
      · exact .inr ⟨c', r', hm⟩
      · simp only [List.mem_singleton, Event.report.injEq] at hm
        exact .inl hm.1
  · intro s hs
    rw [segments_append, f4, List.append_nil] at hs
    exact h.segs s hs
  · rw [deletions_append, h.deletes]
    rcases f9 with ⟨g1, g2, -⟩ | ⟨g1, g2, -⟩
    · rw [g1, g2]; omega
    · rw [g1, g2]; cases st.didNotify <;> rfl
  · intro x hm
    rcases List.mem_append.1 hm with hm | hm
    · obtain ⟨k1, k2, k3⟩ := h.success x hm
      exact ⟨k1, by rw [f1]; exact k2, fun y hy => hmono y (k3 y hy)⟩
    · rcases f9 with ⟨-, -, g⟩ | ⟨-, -, g1, g2, g3⟩
      · exact absurd hm (g x)
      · exact ⟨g1 x hm, by rw [f1]; exact g2, fun y hy => (f8 y).1 (g3 y hy)⟩
  · intro x hm
    rcases List.mem_append.1 hm with hm | hm
    · exact h.failure x hm
    · exact absurd hm (f6 x)
  · intro k1 k2 k3
    exact f10 (by rw [← f1]; exact k1) k2 k3
  · rw [f1] at hlt
    rw [firstSegments_append, f3, List.append_nil, List.count_append, h.progress hlt]
    rfl

theorem story_step {cfg : Cfg} (hc : cfg.Sane) {evs : List Event} {st : State} {effs : List Eff}
    (h : Story cfg evs st effs) (e : Event) (he : e.Fair cfg) :
    ∃ st' effs', step cfg st e = some (st', effs') ∧ Story cfg (evs ++ [e]) st' (effs ++ effs') := by
  obtain ⟨st', effs', hstep, hinv⟩ := step_inv cfg hc st h.inv e he
  refine ⟨st', effs', hstep, ?_⟩
  cases e with
  | first =>
    rcases firstPass_spec cfg hc st h.inv with ⟨hfull, k⟩ | ⟨hlt, st1, s, st2, tail, h1, h2, k⟩
    · rw [step, k] at hstep
      simp only [Option.some.injEq, Prod.mk.injEq] at hstep
      obtain ⟨rfl, rfl⟩ := hstep
      exact h.quiet hinv (by simp) (fun _ => hfull) rfl rfl rfl rfl rfl rfl (by simp [segments]) (.inl ⟨rfl, rfl⟩)
        (by simp) (by simp)
    · rw [step, k] at hstep
      simp only [Option.some.injEq, Prod.mk.injEq] at hstep
      obtain ⟨rfl, rfl⟩ := hstep
      exact h.firstStep hc hlt h1 h2
  | next =>
    rcases nextCritical_spec cfg hc st h.inv with ⟨a, rest, -, k⟩ | ⟨-, -, k⟩ | ⟨-, -, -, k⟩ |
      ⟨f, rest, -, -, hr, k⟩ <;> rw [step, k] at hstep <;>
      simp only [Option.some.injEq, Prod.mk.injEq] at hstep <;> obtain ⟨rfl, rfl⟩ := hstep
    · exact h.quiet hinv (by simp) (by simp) rfl rfl rfl rfl rfl rfl (by simp [segments]) (.inl ⟨rfl, rfl⟩)
        (by simp) (by simp)
    · exact h.quiet hinv (by simp) (by simp) rfl rfl rfl rfl rfl rfl (by simp [segments]) (.inl ⟨rfl, rfl⟩)
        (by simp) (by simp)
    · exact h.quiet hinv (by simp) (by simp) rfl rfl rfl rfl rfl rfl (by simp [segments]) (.inl ⟨rfl, rfl⟩)
        (by simp) (by simp)
    · refine h.quiet hinv (by simp) (by simp) rfl rfl rfl rfl rfl rfl ?_ (.inl ⟨rfl, rfl⟩)
        (by simp) (by simp)
      intro s hs
      have : s = segOf cfg f := by simpa [segments] using hs
      rw [this]
      exact (h.inv.resend f (by rw [hr]; simp)).seg hc
  | report n c r =>
    obtain ⟨st2, effs2, k1, k2, k3⟩ := reportSegment_spec cfg hc st h.inv n c r he
    rw [step, k1] at hstep
    simp only [Option.some.injEq, Prod.mk.injEq] at hstep
    obtain ⟨rfl, rfl⟩ := hstep
    exact h.reported hc he k3 k2
  | checkpointExpired csn =>
    simp only [step, Option.some.injEq] at hstep
    rcases checkpointExpired_spec cfg hc st h.inv csn with ⟨-, k⟩ | ⟨f, -, -, ⟨-, -, k⟩ | ⟨-, k⟩ | ⟨-, k⟩⟩ <;>
      rw [k] at hstep <;> simp only [Prod.mk.injEq] at hstep <;> obtain ⟨rfl, rfl⟩ := hstep
    · exact h.quiet hinv (by simp) (by simp) rfl rfl rfl rfl rfl rfl (by simp [segments]) (.inl ⟨rfl, rfl⟩)
        (by simp) (by simp)
    · exact h.quiet hinv (by simp) (by simp) rfl rfl rfl rfl rfl rfl (by simp [segments]) (.inl ⟨rfl, rfl⟩)
        (by simp) (by simp)
    · exact h.quiet hinv (by simp) (by simp) rfl rfl rfl rfl rfl rfl (by simp [segments]) (.inl ⟨rfl, rfl⟩)
        (by simp) (by simp)
    · have hd := Bool.eq_false_or_eq_true st.didNotify
      refine h.quiet hinv (by simp) (by simp) rfl rfl rfl rfl ?_ ?_ ?_ ?_ ?_ ?_
      · split <;> rfl
      · split <;> rfl
      · split <;> simp [segments]
      · rcases hd with hd | hd
        · left; rw [if_pos hd]; exact ⟨rfl, hd.symm⟩
        · right; rw [if_neg (by simp [hd])]; exact ⟨hd, rfl, rfl⟩
      · intro r; split <;> simp
      · intro r; split <;> simp
  | delayExpired =>
    rcases delayExpired_spec cfg hc st h.inv with ⟨-, k⟩ | ⟨-, q, n, k, -⟩ <;> rw [step, k] at hstep <;>
      simp only [Option.some.injEq, Prod.mk.injEq] at hstep <;> obtain ⟨rfl, rfl⟩ := hstep
    · exact h.quiet hinv (by simp) (by simp) rfl rfl rfl rfl rfl rfl (by simp [segments]) (.inl ⟨rfl, rfl⟩)
        (by simp) (by simp)
    · refine h.quiet hinv (by simp) (by simp) rfl rfl rfl rfl ?_ ?_ ?_ (.inl ⟨?_, rfl⟩) ?_ ?_
      · split <;> rfl
      · split <;> rfl
      · split <;> simp [segments]
      · split <;> rfl
      · intro r; split <;> simp
      · intro r; split <;> simp

theorem Fair.last {cfg : Cfg} {evs : List Event} {e : Event} (h : Fair cfg (evs ++ [e])) :
    Fair cfg evs ∧ e.Fair cfg := by
  refine ⟨fun n c r hm => h n c r (by simp [hm]), ?_⟩
  cases e with
  | report n c r => exact h n c r (by simp)
  | _ => trivial

theorem story (cfg : Cfg) (hc : cfg.Sane) (serial : Nat) (hs : serial < 2 ^ 64) (evs : List Event)
    (h : Fair cfg evs) :
    ∃ st effs, run cfg (init cfg serial) evs = some (st, effs) ∧ Story cfg evs st effs := by
  induction evs using List.reverseRecOn with
  | nil => exact ⟨_, _, rfl, init_story cfg serial hs⟩
  | append_singleton evs e ih =>
    obtain ⟨h1, h2⟩ := h.last
    obtain ⟨st, effs, k1, k2⟩ := ih h1
    obtain ⟨st', effs', k3, k4⟩ := story_step hc k2 e h2
    exact ⟨st', effs ++ effs', by rw [run_snoc cfg _ _ _ _ _ k1, k3]; rfl, k4⟩

end Hdtn.LtpSender
