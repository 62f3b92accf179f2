import Verif.BpSecPolicy.Load

/-!
C90: finding a BPSec policy.  C91: reading BPSec policies from the configuration.
-/

namespace Hdtn.BpSecPolicy

open HashMap16 (Eid)
open Spec

/-! ### Examples -/

/-- The text of a URI. -/
def uri (s : String) : Bytes := s.toUTF8.toList

/-- Calls: one for everything, one for a node as source, one for an endpoint, one that is refused, and the
second again. -/
def exampleCalls : List Call :=
  [⟨uri "ipn:*.*", uri "ipn:*.*", uri "ipn:*.*", roleVerifier⟩,
    ⟨uri "ipn:*.*", uri "ipn:5.*", uri "ipn:*.*", roleVerifier⟩,
    ⟨uri "ipn:7.1", uri "ipn:5.2", uri "ipn:9.3", roleVerifier⟩,
    ⟨uri "ipn:*.*", uri "ipn:6.1", uri "dtn:none", roleVerifier⟩,
    ⟨uri "ipn:*.*", uri "ipn:5.*", uri "ipn:*.*", roleVerifier⟩]

/-! ### C90: creating and finding -/

/-- **C90**, creating: a call is refused exactly if it is for no place (a URI is invalid or the role does not
exist); the policy is new exactly if no earlier call was for the same place; and two calls give the
same policy exactly if they are for the same place. -/
theorem C90_create (calls : List Call) (i : Nat) (c : Call) (hc : calls[i]? = some c) :
    ((Run.run calls).results[i]? = some none ↔ ∀ p, ¬ IsFor c p) ∧
    (∀ p id isNew, IsFor c p → (Run.run calls).results[i]? = some (some (id, isNew)) →
      (isNew = true ↔ ∀ (j : Nat) c', j < i → calls[j]? = some c' → ¬ IsFor c' p)) ∧
    (∀ (j : Nat) c' p p' id id' isNew isNew', calls[j]? = some c' → IsFor c p → IsFor c' p' →
      (Run.run calls).results[i]? = some (some (id, isNew)) →
      (Run.run calls).results[j]? = some (some (id', isNew')) → (id = id' ↔ p = p')) := by
  obtain ⟨h1, h2⟩ := results_inv calls i c hc
  refine ⟨h1, ?_, ?_⟩
  · intro p id isNew hp hr
    obtain ⟨id', b, _, hb, hn⟩ := h2 p hp
    rw [hr] at hb
    simp only [Option.some.injEq, Prod.mk.injEq] at hb
    rw [hb.2]; exact hn
  · intro j c' p p' id id' isNew isNew' hc' hp hp' hr hr'
    obtain ⟨x, b, hx, hb, _⟩ := h2 p hp
    obtain ⟨x', b', hx', hb', _⟩ := (results_inv calls j c' hc').2 p' hp'
    rw [hr] at hb
    rw [hr'] at hb'
    simp only [Option.some.injEq, Prod.mk.injEq] at hb hb'
    rw [hb.1, hb'.1]
    constructor
    · intro e
      rw [← e] at hx'
      exact (run_inv calls).inj p p' x hp.2.2.2.2 hp'.2.2.2.2 hx hx'
    · intro e
      subst e
      rw [hx] at hx'
      exact Option.some.inj hx'

example : (Run.run exampleCalls).results =
    [some (0, true), some (1, true), some (2, true), none, some (1, false)] := by decide +kernel

/-- **C90**, finding: a search gives the policy of the place it arrives at (see `Arrives`), and nothing if it
arrives at none. -/
theorem C90_find (calls : List Call) (q : Query) (id : Nat) :
    (Run.run calls).root.find q = some id ↔
      ∃ p, Arrives calls q p ∧ ∃ (i : Nat) (c : Call) (isNew : Bool),
        calls[i]? = some c ∧ IsFor c p ∧ (Run.run calls).results[i]? = some (some (id, isNew)) := by
  rw [arrives_iff (run_inv calls)]
  constructor
  · rintro ⟨p, ha, hi⟩
    obtain ⟨c, hc, hf⟩ := ha.2.2.2.2
    obtain ⟨i, hi'⟩ := List.getElem?_of_mem hc
    obtain ⟨id', b, h1, h2, _⟩ := (results_inv calls i c hi').2 p hf
    rw [hi] at h1
    rw [← Option.some.inj h1] at h2
    exact ⟨p, ha, i, c, b, hi', hf, h2⟩
  · rintro ⟨p, ha, i, c, b, hc, hf, hr⟩
    obtain ⟨id', b', h1, h2, _⟩ := (results_inv calls i c hc).2 p hf
    rw [hr] at h2
    simp only [Option.some.injEq, Prod.mk.injEq] at h2
    exact ⟨p, ha, by rw [h1, h2.1]⟩

example : (Run.run exampleCalls).root.find ⟨⟨8, 1⟩, ⟨5, 3⟩, ⟨9, 3⟩, roleVerifier⟩ = some 1 ∧
    (Run.run exampleCalls).root.find ⟨⟨8, 1⟩, ⟨4, 3⟩, ⟨9, 3⟩, roleVerifier⟩ = some 0 ∧
    (Run.run exampleCalls).root.find ⟨⟨7, 1⟩, ⟨5, 2⟩, ⟨9, 3⟩, roleVerifier⟩ = some 2 := by decide +kernel

/-- **C90**, what is found applies: its patterns select the endpoints of the bundle and its role is the one asked
for. -/
theorem C90_applies (calls : List Call) (q : Query) (id : Nat) (h : (Run.run calls).root.find q = some id) :
    ∃ p, Applies p q ∧ ∃ (i : Nat) (c : Call) (isNew : Bool),
      calls[i]? = some c ∧ IsFor c p ∧ (Run.run calls).results[i]? = some (some (id, isNew)) := by
  obtain ⟨p, ⟨h1, h2, h3, h4, _⟩, hrest⟩ := (C90_find calls q id).mp h
  exact ⟨p, ⟨h1.2.1, h2.2.1, h3.2.1, h4⟩, hrest⟩

/-- **C90**, a rule that applies is found, partial: for a rule that names the three endpoints themselves.  The
full claim is for every rule that applies; see `C90_masked_violated`, `C90_role_violated` and
`C90_refused_violated`. -/
theorem C90_exact_partial (calls : List Call) (q : Query) (c : Call) (hc : c ∈ calls)
    (hf : IsFor c ⟨.exact q.sec, .exact q.src, .exact q.dst, q.role⟩) :
    ∃ id, (Run.run calls).root.find q = some id ∧ ∃ (i : Nat) (isNew : Bool),
      calls[i]? = some c ∧ (Run.run calls).results[i]? = some (some (id, isNew)) := by
  obtain ⟨i, hi⟩ := List.getElem?_of_mem hc
  obtain ⟨id, b, h1, h2, _⟩ := (results_inv calls i c hi).2 _ hf
  refine ⟨id, ?_, i, b, hi, h2⟩
  rw [arrives_iff (run_inv calls)]
  refine ⟨_, ⟨⟨⟨c, hc, hf.1⟩, rfl, fun _ _ _ => Nat.zero_le _⟩,
    ⟨⟨c, hc, hf.1, hf.2.1⟩, rfl, fun _ _ _ => Nat.zero_le _⟩,
    ⟨⟨c, hc, hf.1, hf.2.1, hf.2.2.1⟩, rfl, fun _ _ _ => Nat.zero_le _⟩, rfl, c, hc, hf⟩, h1⟩

example : (∃ c ∈ exampleCalls, IsFor c ⟨.exact ⟨7, 1⟩, .exact ⟨5, 2⟩, .exact ⟨9, 3⟩, roleVerifier⟩) :=
  ⟨⟨uri "ipn:7.1", uri "ipn:5.2", uri "ipn:9.3", roleVerifier⟩, by decide +kernel, by decide +kernel⟩

/-- **C90**, a rule that applies is found, partial: for a configuration whose rules all speak of the same
security source and of the same bundle source, as when both are `ipn:*.*` everywhere, and with the role asked for. -/
theorem C90_uniform_partial (calls : List Call) (q : Query) (p : Place) (hp : Applies p q)
    (hall : ∀ c ∈ calls, ∃ x, IsFor c ⟨p.sec, p.src, x, p.role⟩) (hc : ∃ c ∈ calls, IsFor c p) :
    ∃ id, (Run.run calls).root.find q = some id := by
  obtain ⟨c, hcm, hcf⟩ := hc
  -- the strictest of the destinations named
  have hex : ∃ d, Strictest (fun x => ∃ c ∈ calls, parsePat c.sec = some p.sec ∧ parsePat c.src = some p.src ∧
      parsePat c.dst = some x) q.dst d := by
    have h0 : ∃ n d, rank d = n ∧ (∃ c ∈ calls, parsePat c.sec = some p.sec ∧ parsePat c.src = some p.src ∧
        parsePat c.dst = some d) ∧ Matches d q.dst :=
      ⟨_, p.dst, rfl, ⟨c, hcm, hcf.1, hcf.2.1, hcf.2.2.1⟩, hp.2.2.1⟩
    classical
    obtain ⟨d, h1, h2, h3⟩ := Nat.find_spec h0
    refine ⟨d, h2, h3, fun x hx hm => ?_⟩
    rw [h1]
    exact Nat.find_min' h0 ⟨x, rfl, hx, hm⟩
  obtain ⟨d, hd⟩ := hex
  obtain ⟨c', hc', e1, e2, e3⟩ := hd.1
  have hf' : IsFor c' ⟨p.sec, p.src, d, q.role⟩ := by
    obtain ⟨x, hx⟩ := hall c' hc'
    exact ⟨e1, e2, e3, by rw [hx.2.2.2.1]; exact hp.2.2.2, by have := hx.2.2.2.2; rw [← hp.2.2.2]; exact this⟩
  have harr : Arrives calls q ⟨p.sec, p.src, d, q.role⟩ := by
    refine ⟨⟨⟨c, hcm, hcf.1⟩, hp.1, ?_⟩, ⟨⟨c, hcm, hcf.1, hcf.2.1⟩, hp.2.1, ?_⟩, hd, rfl, c', hc', hf'⟩
    · rintro x ⟨c2, h2, e⟩ _
      obtain ⟨y, hy⟩ := hall c2 h2
      rw [hy.1] at e
      exact Nat.le_of_eq (congrArg rank (Option.some.inj e))
    · rintro x ⟨c2, h2, _, e⟩ _
      obtain ⟨y, hy⟩ := hall c2 h2
      rw [hy.2.1] at e
      exact Nat.le_of_eq (congrArg rank (Option.some.inj e))
  obtain ⟨id, hid⟩ := ((run_inv calls).has _ hf'.2.2.2.2).mpr ⟨c', hc', hf'⟩
  exact ⟨id, (arrives_iff (run_inv calls) q id).mpr ⟨_, harr, hid⟩⟩

/-- Two destinations. -/
def uniformCalls : List Call :=
  [⟨uri "ipn:*.*", uri "ipn:*.*", uri "ipn:4.*", roleSource⟩, ⟨uri "ipn:*.*", uri "ipn:*.*", uri "ipn:*.*", roleSource⟩]

example : (∀ c ∈ uniformCalls, ∃ x, IsFor c ⟨.any, .any, x, roleSource⟩) ∧
    (∃ c ∈ uniformCalls, IsFor c ⟨.any, .any, .any, roleSource⟩) := by
  refine ⟨?_, ⟨_, List.mem_cons_of_mem _ List.mem_cons_self, by decide +kernel⟩⟩
  intro c hc
  simp only [uniformCalls, List.mem_cons, List.not_mem_nil, or_false] at hc
  rcases hc with rfl | rfl
  · exact ⟨.node 4, by decide +kernel⟩
  · exact ⟨.any, by decide +kernel⟩

/-- **C90 fails**: there is a rule for everything, but a rule for security source 7.1 and bundle source 5.2 makes
a search with that security source and another bundle source give nothing. -/
theorem C90_masked_violated :
    let calls : List Call := [⟨uri "ipn:*.*", uri "ipn:*.*", uri "ipn:*.*", roleVerifier⟩,
      ⟨uri "ipn:7.1", uri "ipn:5.2", uri "ipn:*.*", roleVerifier⟩]
    let q : Query := ⟨⟨7, 1⟩, ⟨6, 1⟩, ⟨9, 1⟩, roleVerifier⟩
    Applies ⟨.any, .any, .any, roleVerifier⟩ q ∧ (∃ c ∈ calls, IsFor c ⟨.any, .any, .any, roleVerifier⟩) ∧
    (Run.run calls).root.find q = none := by
  refine ⟨⟨trivial, trivial, trivial, rfl⟩, ⟨_, List.mem_cons_self, by decide +kernel⟩, by decide +kernel⟩

/-- **C90 fails**: a rule for another role masks one that applies. -/
theorem C90_role_violated :
    let calls : List Call := [⟨uri "ipn:*.*", uri "ipn:*.*", uri "ipn:*.*", roleAcceptor⟩,
      ⟨uri "ipn:*.*", uri "ipn:*.*", uri "ipn:9.1", roleVerifier⟩]
    let q : Query := ⟨⟨7, 1⟩, ⟨6, 1⟩, ⟨9, 1⟩, roleAcceptor⟩
    Applies ⟨.any, .any, .any, roleAcceptor⟩ q ∧ (∃ c ∈ calls, IsFor c ⟨.any, .any, .any, roleAcceptor⟩) ∧
    (Run.run calls).root.find q = none := by
  refine ⟨⟨trivial, trivial, trivial, rfl⟩, ⟨_, List.mem_cons_self, by decide +kernel⟩, by decide +kernel⟩

/-- **C90 fails**: a call that is refused still masks rules that apply. -/
theorem C90_refused_violated :
    let calls : List Call := [⟨uri "ipn:*.*", uri "ipn:*.*", uri "ipn:*.*", roleVerifier⟩,
      ⟨uri "ipn:7.1", uri "ipn:x", uri "ipn:*.*", roleVerifier⟩]
    let q : Query := ⟨⟨7, 1⟩, ⟨6, 1⟩, ⟨9, 1⟩, roleVerifier⟩
    (Run.run calls).results = [some (0, true), none] ∧
    (Run.run (calls.take 1)).root.find q = some 0 ∧ (Run.run calls).root.find q = none := by
  decide +kernel

/-! ### C90: the cache -/

/-- A cache that agrees with the filters. -/
def CacheOk (root : Root) (c : Cache) : Prop := c.found = root.find c.last

theorem findCached_eq (root : Root) (q : Query) (c : Cache) (h : CacheOk root c) :
    (root.findCached q c).1 = root.find q ∧ CacheOk root (root.findCached q c).2 ∧
    (root.findCached q c).2.last = q ∧
    ((root.findCached q c).2.hit = true ↔ q = c.last ∧ root.find q ≠ none) := by
  unfold Root.findCached
  have hq : (q.role = c.last.role ∧ q.sec = c.last.sec ∧ q.src = c.last.src ∧ q.dst = c.last.dst) ↔ q = c.last := by
    constructor
    · rintro ⟨h1, h2, h3, h4⟩
      cases q
      cases hl : c.last
      simp_all
    · rintro rfl; simp
  by_cases he : q = c.last
  · rw [if_pos (hq.mpr he)]
    unfold CacheOk at h
    cases hf : c.found with
    | some id =>
      rw [hf, ← he] at h
      exact ⟨h, by simp only [CacheOk]; rw [← he]; exact h, he.symm, by simp [← h, ← he]⟩
    | none =>
      rw [hf, ← he] at h
      exact ⟨h, by simp only [CacheOk]; rw [← he]; exact h, he.symm, by simp [← h]⟩
  · rw [if_neg (fun hh => he (hq.mp hh))]
    exact ⟨rfl, rfl, rfl, by simp [he]⟩

/-- **C90**, the cache: as long as no policy is created, every search with a cache gives what a search without
one gives, from any cache that agrees with the filters, as a new one does. -/
theorem C90_cache (root : Root) (c : Cache) (h : CacheOk root c) (qs : List Query) :
    (root.findAll c qs).map (·.1) = qs.map root.find := by
  induction qs generalizing c with
  | nil => rfl
  | cons q qs ih =>
    obtain ⟨h1, h2, _, _⟩ := findCached_eq root q c h
    simp only [Root.findAll, List.map_cons]
    rw [ih _ h2, h1]

/-- **C90**, the cache reports a hit exactly if the same was looked up just before and found. -/
theorem C90_cache_hit (root : Root) (c : Cache) (h : CacheOk root c) (q q' : Query) :
    root.findAll c [q, q'] = [(root.find q, decide (q = c.last ∧ root.find q ≠ none)),
      (root.find q', decide (q' = q ∧ root.find q' ≠ none))] := by
  obtain ⟨h1, h2, h3, h4⟩ := findCached_eq root q c h
  obtain ⟨k1, _, _, k4⟩ := findCached_eq root q' _ h2
  rw [h3] at k4
  simp only [Root.findAll, List.cons.injEq, Prod.mk.injEq, and_true]
  refine ⟨⟨h1, ?_⟩, k1, ?_⟩
  · rw [Bool.eq_iff_iff, h4, decide_eq_true_eq]
  · rw [Bool.eq_iff_iff, k4, decide_eq_true_eq]

/-- A new cache agrees with all filters. -/
theorem C90_cache_init (root : Root) : CacheOk root .init := by
  simp only [CacheOk, Cache.init, Root.find]
  cases root.lookup ⟨0, 0⟩ with
  | none => rfl
  | some l1 =>
    simp only
    cases l1.lookup ⟨0, 0⟩ with
    | none => rfl
    | some l2 =>
      simp only
      cases l2.lookup ⟨0, 0⟩ with
      | none => rfl
      | some l3 => rfl

/-- **C90 fails** if a policy is created between two searches with one cache: the second still gives the result of
the first. -/
theorem C90_cache_violated :
    let c1 : Call := ⟨uri "ipn:*.*", uri "ipn:*.*", uri "ipn:*.*", roleVerifier⟩
    let q : Query := ⟨⟨7, 1⟩, ⟨6, 1⟩, ⟨9, 1⟩, roleVerifier⟩
    let cache := ((Run.run []).root.findCached q .init).2
    ((Run.run [c1]).root.findCached q cache).1 = none ∧ (Run.run [c1]).root.find q = some 0 := by
  decide +kernel

/-! ### C91 -/

/-- **C91**, what is accepted: loading succeeds exactly if every rule can be used and no two pairs of a source and a
destination, of rules for the same service, are for the same place. -/
theorem C91_accepts (rs : List Rule) :
    (Manager.init.load rs).2 = true ↔
      (∀ r ∈ rs, Usable r) ∧ (placesOf .integrity rs).Nodup ∧ (placesOf .confidentiality rs).Nodup := by
  have key : (Manager.init.load rs).2 = true ↔ ∃ js m', jobsOfAll rs = some js ∧ Manager.init.jobs js = (m', true) := by
    constructor
    · intro h
      obtain ⟨js, h1, h2⟩ := (load_eq rs Manager.init (Manager.init.load rs).1).mp (by rw [← h])
      exact ⟨js, _, h1, h2⟩
    · rintro ⟨js, m', h1, h2⟩
      rw [(load_eq rs Manager.init m').mpr ⟨js, h1, h2⟩]
  rw [key]
  constructor
  · rintro ⟨js, m', hjs, hm⟩
    obtain ⟨hfit, _⟩ := (jobs_inv js [] Manager.init JInv.empty).2 m' hm
    rw [allFit_iff] at hfit
    obtain ⟨_, hu, hs⟩ := jobsOfAll_mem rs js hjs
    have huris := hu.mp hfit.1
    refine ⟨fun r hr => ?_, ?_, ?_⟩
    · obtain ⟨a, b, c⟩ := hs r hr
      exact ⟨a, b, c, huris r hr⟩
    · rw [← jobsOfAll_places rs js hjs]; exact (hfit.2 .integrity).1
    · rw [← jobsOfAll_places rs js hjs]; exact (hfit.2 .confidentiality).1
  · rintro ⟨hu, hn1, hn2⟩
    obtain ⟨js, hjs⟩ := jobsOfAll_ok rs (fun r hr => ⟨(hu r hr).role, (hu r hr).service, (hu r hr).oneKey⟩)
    obtain ⟨_, hu', _⟩ := jobsOfAll_mem rs js hjs
    have hfit : AllFit [] js := by
      rw [allFit_iff]
      refine ⟨hu'.mpr (fun r hr => (hu r hr).uris), fun s => ⟨?_, by simp [jobPlaces]⟩⟩
      rw [jobsOfAll_places rs js hjs]
      cases s
      · exact hn2
      · exact hn1
    obtain ⟨m', hm⟩ := (jobs_inv js [] Manager.init JInv.empty).1 hfit
    exact ⟨js, m', hjs, hm⟩

/-- **C91**, what is found after loading: a search that arrives at a place of the rules gives a policy with exactly
the services and settings that the rules give for it, and one that arrives at none gives nothing. -/
theorem C91_contents (rs : List Rule) (m : Manager) (h : Manager.init.load rs = (m, true)) (q : Query) :
    (m.find q = none ↔ ∀ p, ¬ Arrives (callsOf rs) q p) ∧
    (∀ pol, m.find q = some pol → ∃ p, Arrives (callsOf rs) q p ∧ Does rs p pol) := by
  obtain ⟨js, hjs, hm⟩ := (load_eq rs Manager.init m).mp h
  obtain ⟨_, hinv⟩ := (jobs_inv js [] Manager.init JInv.empty).2 m hm
  rw [List.nil_append] at hinv
  have hcalls := jobsOfAll_calls rs js hjs
  have hroot := hinv.root
  rw [hcalls] at hroot
  have harr := arrives_iff hroot q
  have hsome : ∀ p, Arrives (callsOf rs) q p → ∃ id pol, m.root.find q = some id ∧ idAt m.root p = some id ∧
      m.policies[id]? = some pol ∧ PolInv js p pol := by
    intro p hp
    obtain ⟨c, hc, hf⟩ := hp.2.2.2.2
    obtain ⟨id, hid⟩ := (hroot.has p hf.2.2.2.2).mpr ⟨c, hc, hf⟩
    obtain ⟨pol, h1, h2⟩ := hinv.pol p id hf.2.2.2.2 hid
    exact ⟨id, pol, (harr id).mpr ⟨p, hp, hid⟩, hid, h1, h2⟩
  constructor
  · constructor
    · intro hn p hp
      obtain ⟨id, pol, h1, _, h2, _⟩ := hsome p hp
      simp [Manager.find, h1, h2] at hn
    · intro hn
      unfold Manager.find
      cases hf : m.root.find q with
      | none => rfl
      | some id =>
        obtain ⟨p, hp, _⟩ := (harr id).mp hf
        exact absurd hp (hn p)
  · intro pol hpol
    unfold Manager.find at hpol
    cases hf : m.root.find q with
    | none => rw [hf] at hpol; simp at hpol
    | some id =>
      rw [hf] at hpol
      simp only at hpol
      obtain ⟨p, hp, hid⟩ := (harr id).mp hf
      obtain ⟨id', pol', _, h2, h3, h4⟩ := hsome p hp
      rw [hid] at h2
      rw [← Option.some.inj h2, hpol] at h3
      rw [← Option.some.inj h3] at h4
      refine ⟨p, hp, ⟨?_, ?_⟩, ⟨?_, ?_⟩⟩
      · rw [h4.doBib, ← mem_jobPlaces, jobsOfAll_places rs js hjs]
      · intro r hr hs hpl
        obtain ⟨j, hj, e1, e2, e3, e4⟩ := (jobsOfAll_mem rs js hjs).1 r hr .integrity hs p hpl
        rw [h4.bib j hj e1 e2, e3, e4]; rfl
      · rw [h4.doBcb, ← mem_jobPlaces, jobsOfAll_places rs js hjs]
      · intro r hr hs hpl
        obtain ⟨j, hj, e1, e2, e3, e4⟩ := (jobsOfAll_mem rs js hjs).1 r hr .confidentiality hs p hpl
        rw [h4.bcb j hj e1 e2, e3, e4]; rfl

/-- A source that signs and encrypts the payload, but does not encrypt the integrity block. -/
def overlapRules : List Rule :=
  [⟨some 0, some .integrity, uri "ipn:1.1", [uri "ipn:*.*"], [uri "ipn:*.*", uri "ipn:3.*"], [1], 1,
      [.sha 512, .scope 3, .key (some [1, 2])]⟩,
    ⟨some 0, some .confidentiality, uri "ipn:1.1", [uri "ipn:*.*"], [uri "ipn:*.*"], [1], 1,
      [.ivSize 16, .aes 128, .kek (some [3, 4, 5])]⟩]

example : (Manager.init.load overlapRules).2 = true ∧
    ((Manager.init.load overlapRules).1.find ⟨⟨1, 1⟩, ⟨2, 2⟩, ⟨3, 3⟩, roleSource⟩).map (fun p => (p.doBib, p.doBcb)) =
      some (true, false) ∧
    ((Manager.init.load overlapRules).1.find ⟨⟨1, 1⟩, ⟨2, 2⟩, ⟨4, 3⟩, roleSource⟩).map (fun p => (p.doBib, p.doBcb)) =
      some (true, true) := by decide +kernel

/-- **C91**, the rule "if a BCB shares targets with a BIB, the BIB must be encrypted": `ValidateAndFinalize` refuses a
policy exactly if it has both services and the rule is broken. -/
theorem C91_validate (p : Policy) :
    p.validate = none ↔ p.doBib = true ∧ p.doBcb = true ∧ (∃ t, t ∈ p.bcb.targets ∧ t ∈ p.bib.targets) ∧
      11 ∉ p.bcb.targets := by
  unfold Policy.validate
  rcases Bool.eq_false_or_eq_true p.doBib with h1 | h1
  swap
  · simp [h1]
  rcases Bool.eq_false_or_eq_true p.doBcb with h2 | h2
  swap
  · simp [h1, h2]
  simp only [h1, h2, Bool.and_self, Bool.true_and, if_true, true_and]
  by_cases hs : ∃ t, t ∈ p.bcb.targets ∧ t ∈ p.bib.targets
  · have : p.bcb.targets.any (fun t => p.bib.targets.contains t) = true := by
      rw [List.any_eq_true]
      obtain ⟨t, a, b⟩ := hs
      exact ⟨t, a, by simpa using b⟩
    rw [if_pos this]
    by_cases hb : 11 ∈ p.bcb.targets
    · have : p.bcb.targets.contains typeBib = true := by simpa [typeBib] using hb
      rw [if_pos this]
      simp [hb]
    · have : ¬ p.bcb.targets.contains typeBib = true := by simpa [typeBib] using hb
      rw [if_neg this]
      simp [hs, hb]
  · have : ¬ p.bcb.targets.any (fun t => p.bib.targets.contains t) = true := by
      rw [List.any_eq_true]
      rintro ⟨t, a, b⟩
      exact hs ⟨t, a, by simpa using b⟩
    rw [if_neg this]
    simp [hs]

/-- **C91 fails** for that rule when policies are loaded: the check runs before the two services of a place are put
together, so that the flags it sets are off in every policy that any configuration gives, and a configuration that
breaks the rule is accepted. -/
theorem C91_overlap_violated :
    (∀ rs m ok, Manager.init.load rs = (m, ok) → ok = true →
      ∀ p ∈ m.policies, p.bcbPayload = false ∧ p.bibEncrypt = false) ∧
    (∃ p, (Manager.init.load overlapRules).2 = true ∧ p ∈ (Manager.init.load overlapRules).1.policies ∧
      p.validate = none) := by
  constructor
  · intro rs m ok h hok
    subst hok
    obtain ⟨js, hjs, hm⟩ := (load_eq rs Manager.init m).mp h
    exact jobs_off js (jobsOfAll_off rs js hjs) Manager.init m true (by simp [Manager.init]) hm
  · refine ⟨⟨true, true, false, false, ⟨7, 3, 0, [1], [], [1, 2], 1⟩, ⟨1, false, 7, 0, [1], [3, 4, 5], [], 1⟩⟩, ?_⟩
    decide +kernel

end Hdtn.BpSecPolicy
