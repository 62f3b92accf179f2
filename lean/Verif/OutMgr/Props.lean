import Verif.OutMgr.Lemmas

/-!
C167 and C168: the outducts of a node, and the routes to them.
-/

namespace Hdtn.OutMgr

open Hdtn.OutMgr.Spec

/-- Two outducts. -/
def example1 : List Config := [⟨some .stcp, 10, 2000000, 5, false, true⟩, ⟨some .udp, 20, 2000000, 3, false, true⟩]

/-- As they are loaded. -/
def loaded1 : Mgr := (load false 1000000 Mgr.init example1).2

/-! ### C167: loading -/

/-- Loading succeeds exactly with a valid configuration. Missing: sizes of bundles of 2^63 and more. -/
theorem C167_valid_partial (openssl : Bool) (maxBundle : Nat) (hb : 2 * maxBundle < 2 ^ 64) (m : Mgr) (cs : List Config) :
    (load openssl maxBundle m cs).1 = true ↔ Valid openssl maxBundle cs := by
  unfold load Valid
  rw [loadAll_iff openssl maxBundle hb cs _ [] ⟨rfl, rfl, by simp [find_nil], by simp⟩]
  simp

example : (load false 1000000 Mgr.init example1).1 = true := by decide +kernel
example : (load false 1000001 Mgr.init example1).1 = false := by decide +kernel

/-- False: twice the size is computed with 64 bits; with bundles of up to 2^63 bytes any pipeline is taken to be long enough. -/
theorem C167_overflow_violated (m : Mgr) : (load false (2 ^ 63) m [⟨some .udp, 10, 0, 5, false, true⟩]).1 = true ∧
    ¬ Valid false (2 ^ 63) [⟨some .udp, 10, 0, 5, false, true⟩] := by
  refine ⟨rfl, ?_⟩
  intro h
  have := (h.1 _ List.mem_cons_self).room
  simp at this

/-- After loading there is one outduct for each entry, numbered in order; for a next hop there is the outduct with that entry; and there are no routes. -/
theorem C167_loaded (openssl : Bool) (maxBundle : Nat) (m0 m : Mgr) (cs : List Config) (h : load openssl maxBundle m0 cs = (true, m)) :
    m.ducts = cs ∧ m.routes = [] ∧ ∀ k i, find m.hops k = some i ↔ (cs[i]?).map Config.nextHop = some k := by
  obtain ⟨k, a, b, d, e, f⟩ := loadAll_loaded openssl maxBundle cs { m0 with routes := [], hops := [], ducts := [] } []
    ⟨rfl, rfl, by simp [find_nil], by simp⟩
  unfold load at h
  rw [h] at b d
  have hk : k = cs.length := d.mp rfl
  rw [hk, List.take_length, List.nil_append] at b
  refine ⟨b.ducts, b.routes, fun x i => ⟨b.fst x i, ?_⟩⟩
  intro hx
  cases hc : cs[i]? with
  | none => rw [hc] at hx; cases hx
  | some c =>
    rw [hc] at hx; simp at hx
    rw [← hx]; exact b.snd i c hc

/-- While outducts are loaded, each is connected once, in order; a link with connections was announced as down before. -/
theorem C167_seen (openssl : Bool) (maxBundle : Nat) (m0 m : Mgr) (cs : List Config) (h : load openssl maxBundle m0 cs = (true, m)) :
    m.notes = m0.notes ++ (cs.zipIdx.map fun x => seen x.1 x.2).flatten := by
  obtain ⟨k, a, b, d, e, f⟩ := loadAll_loaded openssl maxBundle cs { m0 with routes := [], hops := [], ducts := [] } []
    ⟨rfl, rfl, by simp [find_nil], by simp⟩
  unfold load at h
  rw [h] at d e
  have hk : k = cs.length := d.mp rfl
  rw [hk, List.take_length] at e
  exact e

example : loaded1.notes = [.down 0, .connect 0, .connect 1] := by decide +kernel

/-- If loading fails, the outducts of the entries before the wrong one are there. -/
theorem C167_failed (openssl : Bool) (maxBundle : Nat) (m0 m : Mgr) (cs : List Config) (h : load openssl maxBundle m0 cs = (false, m)) :
    ∃ k, k < cs.length ∧ m.ducts = cs.take k ∧ m.notes = m0.notes ++ ((cs.take k).zipIdx.map fun x => seen x.1 x.2).flatten := by
  obtain ⟨k, a, b, d, e, f⟩ := loadAll_loaded openssl maxBundle cs { m0 with routes := [], hops := [], ducts := [] } []
    ⟨rfl, rfl, by simp [find_nil], by simp⟩
  unfold load at h
  rw [h] at b d e
  refine ⟨k, ?_, by simpa using b.ducts, e⟩
  have : k ≠ cs.length := fun hk => by have := d.mpr hk; cases this
  omega

example : (load false 1000000 Mgr.init (example1 ++ [⟨some .udp, 10, 2000000, 3, false, true⟩])).1 = false := by decide +kernel

/-! ### C168: routes -/

/-- After any operations, the route for a destination leads to the outduct with the next hop that the router last told. -/
theorem C168_route (openssl : Bool) (maxBundle : Nat) (m0 m : Mgr) (cs : List Config) (h : load openssl maxBundle m0 cs = (true, m)) (ops : List Op) (dest : Nat) :
    ((find (m.run ops).routes dest).bind fun i => cs[i]?).map Config.nextHop = nextHop cs dest ops ∧
    ((find (m.run ops).routes dest).isSome ↔ (nextHop cs dest ops).isSome) := by
  have hr := (reached openssl maxBundle m0 m cs h ops).route dest
  cases hf : find (m.run ops).routes dest with
  | none => rw [hf] at hr; simp only at hr; simp [hr]
  | some i =>
    rw [hf] at hr
    obtain ⟨c, hc, hx⟩ := hr
    simp [hc, hx]

example : load false 1000000 Mgr.init example1 = (true, loaded1) := Prod.ext (by decide +kernel) rfl
example : nextHop example1 7 [.reroute 7 10, .reroute 8 20, .reroute 7 20, .reroute 7 99] = some 20 := by decide +kernel

/-- A new route is refused exactly if no outduct has the next hop; then nothing changes. -/
theorem C168_reroute (openssl : Bool) (maxBundle : Nat) (m0 m : Mgr) (cs : List Config) (h : load openssl maxBundle m0 cs = (true, m)) (ops : List Op) (dest k : Nat) :
    (((m.run ops).reroute dest k).1 = true ↔ k = 2 ^ 64 - 1 ∨ k ∈ cs.map Config.nextHop) ∧
    (((m.run ops).reroute dest k).1 = false → ((m.run ops).reroute dest k).2 = m.run ops) := by
  have hr := reached openssl maxBundle m0 m cs h ops
  have hm := mem_hops cs _ _ hr k
  unfold Mgr.reroute
  rw [show noRoute = 2 ^ 64 - 1 from rfl]
  by_cases h1 : k = 2 ^ 64 - 1
  · rw [if_pos h1]; simp [h1]
  · rw [if_neg h1]
    cases hf : find (m.run ops).hops k with
    | none =>
      rw [hf] at hm
      have : k ∉ cs.map Config.nextHop := fun hx => by obtain ⟨i, hi⟩ := hm.mpr hx; cases hi
      simp only [Bool.false_eq_true, false_iff, not_or]
      exact ⟨⟨h1, this⟩, fun _ => trivial⟩
    | some i =>
      have := hm.mp ⟨i, hf⟩
      simp only [true_iff]
      exact ⟨Or.inr this, fun hx => by cases hx⟩

/-- Without a route a bundle is refused; nothing changes. -/
theorem C168_no_route (openssl : Bool) (maxBundle : Nat) (m0 m : Mgr) (cs : List Config) (h : load openssl maxBundle m0 cs = (true, m)) (ops : List Op) (dest : Nat)
    (b : Bytes) (hn : nextHop cs dest ops = none) : (m.run ops).forward dest b = (false, m.run ops) := by
  have hr := (reached openssl maxBundle m0 m cs h ops).route dest
  unfold Mgr.forward
  cases hf : find (m.run ops).routes dest with
  | none => rfl
  | some i =>
    rw [hf] at hr
    obtain ⟨c, _, hx⟩ := hr
    rw [hn] at hx; cases hx

/-- With one it is handed to the outduct with that next hop and to no other, or refused if that outduct has more than its limit. -/
theorem C168_forward (openssl : Bool) (maxBundle : Nat) (m0 m : Mgr) (cs : List Config) (h : load openssl maxBundle m0 cs = (true, m)) (ops : List Op) (dest k : Nat)
    (b : Bytes) (hn : nextHop cs dest ops = some k) :
    ∃ i c, cs[i]? = some c ∧ c.nextHop = k ∧
      (if (m.run ops).unacked i ≤ c.maxBundles then
        ((m.run ops).forward dest b).1 = true ∧ ((m.run ops).forward dest b).2.handed = (m.run ops).handed ++ [(i, b)]
      else (m.run ops).forward dest b = (false, m.run ops)) := by
  have hr := reached openssl maxBundle m0 m cs h ops
  have hr2 := hr.route dest
  cases hf : find (m.run ops).routes dest with
  | none => rw [hf] at hr2; simp only at hr2; rw [hn] at hr2; cases hr2
  | some i =>
    rw [hf] at hr2
    obtain ⟨c, hc, hx⟩ := hr2
    rw [hn] at hx; cases hx
    refine ⟨i, c, hc, rfl, ?_⟩
    have hd : (m.run ops).ducts[i]? = some c := by rw [hr.ducts]; exact hc
    unfold Mgr.forward
    rw [hf]
    simp only [hd]
    by_cases hl : (m.run ops).unacked i ≤ c.maxBundles
    · rw [if_pos hl, if_neg (by omega)]; exact ⟨rfl, rfl⟩
    · rw [if_neg hl, if_pos (by omega)]

example : nextHop example1 7 [.reroute 7 20] = some 20 ∧ ((loaded1.run [.reroute 7 20]).forward 7 [1]).2.handed = [(1, [1])] := by decide +kernel

/-- An outduct never has more than one bundle above its limit. Missing: the limit itself, see below. -/
theorem C168_limit_partial (openssl : Bool) (maxBundle : Nat) (m : Mgr) (cs : List Config) (h : load openssl maxBundle Mgr.init cs = (true, m)) (ops : List Op)
    (i : Nat) (c : Config) (hc : cs[i]? = some c) : (m.run ops).unacked i ≤ c.maxBundles + 1 := by
  have hd := (reached openssl maxBundle Mgr.init m cs h ops).ducts
  refine limit_run ops m ?_ i c (by rw [hd]; exact hc)
  intro j c' _
  obtain ⟨k, _, _, _, _, f, _⟩ := loadAll_loaded openssl maxBundle cs { Mgr.init with routes := [], hops := [], ducts := [] } []
    ⟨rfl, rfl, by simp [find_nil], by simp⟩
  unfold load at h
  rw [h] at f
  simp only at f
  rw [f]
  simp [Mgr.init]

/-- False: the limit is passed by one, for each outduct that has a route. -/
theorem C168_limit_violated (openssl : Bool) (maxBundle : Nat) (m : Mgr) (cs : List Config) (h : load openssl maxBundle Mgr.init cs = (true, m))
    (i : Nat) (c : Config) (hc : cs[i]? = some c) (hn : c.nextHop ≠ 2 ^ 64 - 1) (dest : Nat) (b : Bytes) :
    (m.run (.reroute dest c.nextHop :: List.replicate (c.maxBundles + 1) (.forward dest b))).unacked i = c.maxBundles + 1 := by
  have hl := routed_load openssl maxBundle Mgr.init m cs h
  have hs := hl.snd i c hc
  obtain ⟨k, _, _, _, _, f, _⟩ := loadAll_loaded openssl maxBundle cs { Mgr.init with routes := [], hops := [], ducts := [] } []
    ⟨rfl, rfl, by simp [find_nil], by simp⟩
  unfold load at h
  rw [h] at f
  simp only at f
  show ((m.step (.reroute dest c.nextHop)).run _).unacked i = _
  have he : m.step (.reroute dest c.nextHop) = { m with routes := (dest, i) :: erase m.routes dest } := by
    simp only [Mgr.step, Mgr.reroute]
    rw [show noRoute = 2 ^ 64 - 1 from rfl, if_neg hn, hs]
  rw [he]
  have hu : m.unacked i = 0 := by rw [f]; rfl
  rw [fill dest i c b (c.maxBundles + 1) _ (by simp [find_cons]) (by simp only; rw [hl.ducts]; exact hc) (by simp only; omega)]
  simp only
  omega

example : example1[1]? = some ⟨some .udp, 20, 2000000, 3, false, true⟩ := rfl

/-- Ingress and storage are told of each outduct with its number, next hop and limits. -/
theorem C168_capabilities (openssl : Bool) (maxBundle : Nat) (m0 m : Mgr) (cs : List Config) (h : load openssl maxBundle m0 cs = (true, m)) (ops : List Op) :
    (m.run ops).capabilities.length = cs.length ∧ ∀ (i : Nat) (c : Config), cs[i]? = some c →
      ∃ l : List Nat, (m.run ops).capabilities[i]? = some (i, c.nextHop, c.maxBundles, c.maxSum, l) := by
  have hd := (reached openssl maxBundle m0 m cs h ops).ducts
  constructor
  · simp [Mgr.capabilities, hd]
  · intro i c hc
    refine ⟨((m.run ops).routes.filter fun r => r.2 == i).map Prod.fst, ?_⟩
    unfold Mgr.capabilities
    rw [List.getElem?_map, List.getElem?_zipIdx, hd, hc]
    simp

/-- And of the destinations: a destination is listed for an outduct exactly if its route leads there, and once. -/
theorem C168_listed (openssl : Bool) (maxBundle : Nat) (m0 m : Mgr) (cs : List Config) (h : load openssl maxBundle m0 cs = (true, m)) (ops : List Op)
    (i : Nat) (c : Config) (hc : cs[i]? = some c) :
    (∀ dest, dest ∈ listed (m.run ops) i ↔ nextHop cs dest ops = some c.nextHop) ∧ (listed (m.run ops) i).Nodup := by
  have hr := reached openssl maxBundle m0 m cs h ops
  have hl : i < (m.run ops).ducts.length := by rw [hr.ducts]; exact (List.getElem?_eq_some_iff.mp hc).1
  rw [listed_eq _ i hl]
  constructor
  · intro dest
    constructor
    · intro hm
      obtain ⟨x, hx, he⟩ := List.mem_map.mp hm
      obtain ⟨h1, h2⟩ := List.mem_filter.mp hx
      obtain ⟨a, v⟩ := x
      simp at he h2
      subst he; subst h2
      have hf := find_of_mem _ hr.keys _ _ h1
      have := hr.route a
      rw [hf] at this
      obtain ⟨c', h3, h4⟩ := this
      rw [hc] at h3; cases h3
      exact h4
    · intro hn
      have := hr.route dest
      cases hf : find (m.run ops).routes dest with
      | none => rw [hf] at this; simp only at this; rw [hn] at this; cases this
      | some j =>
        rw [hf] at this
        obtain ⟨c', h3, h4⟩ := this
        rw [hn] at h4
        have hs1 := hr.snd j c' h3
        have hs2 := hr.snd i c hc
        simp only [Option.some.injEq] at h4
        rw [← h4, hs2] at hs1
        cases hs1
        exact List.mem_map.mpr ⟨(dest, i), List.mem_filter.mpr ⟨find_mem _ _ _ hf, by simp⟩, rfl⟩
  · exact List.Nodup.sublist (List.Sublist.map _ List.filter_sublist) hr.keys

example : listed (loaded1.run [.reroute 7 20, .reroute 8 10, .reroute 9 20]) 1 = [9, 7] := by decide +kernel

end Hdtn.OutMgr
