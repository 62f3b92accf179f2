import Verif.Router.Plans
import Verif.Cgr.Props

/-!
What a change of a link does to the routes, told by messages.
-/

namespace Hdtn.Router

open Spec

/-- What one step does, as far as messages tell. -/
theorem step_links {C : Config} {s s' : State} {now : Nat} {a : Act} (hR : RouteInv' s) (hl : LinkInv s) (hx : IndexInv s)
    (hR' : RouteInv' s') (hl' : LinkInv s') (h : s.step C now a = some s') (hn : ∀ l, a ≠ .load l) :
    ((∀ i, announced i s'.msgs = announced i s.msgs) ∧ ∀ d, routed d s'.msgs = routed d s.msgs) ∨
    ∃ j up, announced j s.msgs = !up ∧ announced j s'.msgs = up ∧ (∀ i, i ≠ j → announced i s'.msgs = announced i s.msgs) ∧
      s'.latest = now / 1000000 - s.epoch / 1000000 ∧
      (s.ready = true → up = true → ∀ d ∈ s.routes.map (·.1), routed d s'.msgs = s'.best C d) ∧
      (s.ready = true → up = false → ∀ d hop, routed d s.msgs = some hop → s.index hop = some j → routed d s'.msgs = s'.best C d) ∧
      (s.ready = true → up = false → ∀ d, (∀ hop, routed d s.msgs = some hop → s.index hop ≠ some j) → routed d s'.msgs = routed d s.msgs) := by
  rcases step_cases h with hsame | ⟨j, o, new, up, hls⟩ | ⟨l, rfl⟩ | ⟨l, rfl⟩
  · left; rw [hsame.msgs]; exact ⟨fun _ => rfl, fun _ => rfl⟩
  · obtain ⟨s1, first, h1, hf, h2⟩ := hls.step
    have hu := update_updated C s1 now j o new up first
    obtain ⟨u1, u2, u3, u4, u5, -⟩ := update_spec (C := C) (now := now) (h1.routeInv hR.toRouteInv) (h1.indexInv hx)
      (o := o) (new := new) (up := up) (by rw [h1.outducts]; exact hls.outduct) hls.dests hls.hop hf
    have hup : ∀ i, s'.up i = (s1.update C now j o new up first).up i := by
      intro i; unfold State.up; rw [h2.outducts]
    have hother : ∀ i, i ≠ j → announced i s'.msgs = announced i s.msgs := by
      intro i hij
      rw [hl'.heard, hl.heard, hup, up_of_bare (hu.there i hij)]
      unfold State.up; rw [h1.outducts]
    have hj : announced j s.msgs = o.isUp := by
      rw [hl.heard]; unfold State.up; rw [hls.outduct]; rfl
    have hj' : announced j s'.msgs = new.isUp := by
      rw [hl'.heard, hup, hu.upHere]
    have ht : ∀ d, routed d s.msgs = lookup s.routes d := hR.told
    have ht' : ∀ d, routed d s'.msgs = lookup s'.routes d := hR'.told
    by_cases hc : o.isUp = new.isUp
    · left
      refine ⟨fun i => ?_, fun d => ?_⟩
      · by_cases hij : i = j
        · rw [hij, hj, hj', hc]
        · exact hother i hij
      · rw [ht, ht', h2.routes, u3 hc, h1.routes]
    · right
      have hnew := hls.isUp hc
      refine ⟨j, up, ?_, hj'.trans hnew, hother, ?_, ?_, ?_, ?_⟩
      · rw [hj, ← hnew]
        cases h3 : o.isUp <;> cases h4 : new.isUp <;> simp_all
      · rw [h2.latest, u4 hc, h1.epoch]
      · intro hr hup d hd
        rw [ht', h2.routes, (u5 hc (h1.ready.trans hr)).1 hup, h1.routes, if_pos hd, h2.best]
      · intro hr hup d hop hd hi
        have : hop = o.hop := by
          have := hx hop j hi
          rw [hls.outduct] at this
          exact (Option.some.inj this).symm
        subst this
        rw [ht', h2.routes, (u5 hc (h1.ready.trans hr)).2 hup, h1.routes, if_pos ⟨by rw [← ht]; exact hd, by rw [h1.index]; exact hi⟩, h2.best]
      · intro hr hup d hd
        rw [ht', h2.routes, (u5 hc (h1.ready.trans hr)).2 hup, h1.routes, if_neg, ht]
        rintro ⟨e1, e2⟩
        rw [h1.index] at e2
        exact hd o.hop (by rw [ht]; exact e1) e2
  · left
    have hm : s'.msgs = s.msgs := by rw [(init_ok h).2.2]; rfl
    rw [hm]; exact ⟨fun _ => rfl, fun _ => rfl⟩
  · exact absurd rfl (hn l)

theorem load_down {C : Config} {s s' : State} {now : Nat} {l : List Planned} (hl' : LinkInv s') (h : s.step C now (.load l) = some s') (i : Nat) :
    announced i s'.msgs = false := by
  rw [hl'.heard]
  unfold State.step at h
  split at h
  · cases h
  cases h
  show ((s.outducts i).map _).any _ = false
  cases s.outducts i <;> rfl

/-- The next hop that is computed. -/
theorem best_spec {C : Config} {s : State} {t0 : Nat} {plan : List Planned} (hs : Loaded C t0 plan s) (hl : LinkInv s) (hx : IndexInv s)
    (hm : C.mgr = false) (hB : Bounded plan) (ht : s.latest < 2 ^ 63 - 1) {d : Nat} (hd : d ≠ C.me) :
    Best (contactsNow C.me s.index s.msgs s.latest plan) C.me s.latest d (s.best C d) := by
  unfold State.best
  rw [hm, filtered_eq hs hl hx]
  simp only [Bool.false_eq_true, if_false]
  have hmem : ∀ c ∈ contactsNow C.me s.index s.msgs s.latest plan, ∃ p ∈ plan, c = p.toCgr := by
    intro c hc
    obtain ⟨p, hp, e⟩ := List.mem_map.mp hc
    exact ⟨p, (List.mem_filter.mp hp).1, e.symm⟩
  refine Cgr.C79_next_hop ?_ ?_ hd
  · intro c hc
    obtain ⟨p, -, rfl⟩ := hmem c hc
    show (0 : Int) ≤ (p.owlt : Int)
    omega
  · refine Cgr.inTime_of_bounds ?_ ?_ ?_
    · omega
    · unfold Cgr.maxTime; omega
    · intro c hc
      obtain ⟨p, hp, rfl⟩ := hmem c hc
      have := hB p hp
      show (p.start : Int) + (p.owlt : Int) < Cgr.maxTime ∧ (p.stop : Int) + (p.owlt : Int) ≤ Cgr.maxTime
      unfold Cgr.maxTime
      omega

end Hdtn.Router
