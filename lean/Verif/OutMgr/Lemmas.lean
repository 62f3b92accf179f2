import Verif.OutMgr.Spec
import Mathlib.Tactic.SplitIfs

namespace Hdtn.OutMgr

open Hdtn.OutMgr.Spec

theorem find_nil (k : Nat) : find [] k = none := rfl

theorem find_cons (k v : Nat) (m : List (Nat × Nat)) (j : Nat) : find ((k, v) :: m) j = if k = j then some v else find m j := by
  unfold find
  by_cases h : k = j
  · simp [h]
  · rw [List.find?_cons_of_neg (by simpa using h), if_neg h]

theorem find_erase (m : List (Nat × Nat)) (k j : Nat) : find (erase m k) j = if k = j then none else find m j := by
  induction m with
  | nil => simp [erase, find]
  | cons x m ih =>
    obtain ⟨a, v⟩ := x
    unfold erase at ih ⊢
    by_cases h : a = k
    · rw [List.filter_cons_of_neg (by simp [h]), ih, find_cons]
      by_cases hj : k = j
      · simp [hj]
      · rw [if_neg hj, if_neg hj, if_neg (by omega)]
    · rw [List.filter_cons_of_pos (by simpa using h), find_cons, ih, find_cons]
      by_cases hj : k = j
      · rw [if_pos hj, if_pos hj, if_neg (by omega)]
      · simp [hj]

theorem find_mem (m : List (Nat × Nat)) (k v : Nat) (h : find m k = some v) : (k, v) ∈ m := by
  induction m with
  | nil => cases h
  | cons x m ih =>
    obtain ⟨a, w⟩ := x
    rw [find_cons] at h
    split_ifs at h with ha
    · cases h; subst ha; exact List.mem_cons_self
    · exact List.mem_cons_of_mem _ (ih h)

/-! ### Loading -/

/-- What holds while outducts are loaded: `done` are the entries up to now. -/
structure Loaded (m : Mgr) (done : List Config) : Prop where
  ducts : m.ducts = done
  routes : m.routes = []
  fst : ∀ h i, find m.hops h = some i → (done[i]?).map Config.nextHop = some h
  snd : ∀ i c, done[i]? = some c → find m.hops c.nextHop = some i

/-- `loadOne` succeeds with the entries that can be used. -/
def OkOne (openssl : Bool) (maxBundle : Nat) (m : Mgr) (c : Config) : Prop :=
  maxBundle * 2 % U64 ≤ c.maxSum ∧ (∃ l, c.layer = some l) ∧ (c.layer = some .tcpclV4 → c.tls = true → openssl = true) ∧ c.initOk = true ∧ find m.hops c.nextHop = none

theorem loadOne_ok (openssl : Bool) (maxBundle : Nat) (m : Mgr) (c : Config) (h : OkOne openssl maxBundle m c) :
    loadOne openssl maxBundle m c = (true, { m with
      hops := (c.nextHop, m.ducts.length) :: m.hops
      ducts := m.ducts ++ [c]
      notes := m.notes ++ seen c m.ducts.length }) := by
  obtain ⟨h1, ⟨l, hl⟩, h3, h4, h5⟩ := h
  unfold loadOne
  rw [if_neg (by omega), hl]
  simp only
  have h6 : (l == .tcpclV4 && !openssl && c.tls) = false := by
    cases ht : c.tls with
    | false => simp
    | true =>
      by_cases hv : l = .tcpclV4
      · rw [hl, hv] at h3; rw [h3 rfl ht]; simp
      · simp [hv]
  rw [h6, h4, h5]
  simp only [Bool.false_eq_true, if_false, Bool.not_true, Option.isSome_none, Prod.mk.injEq, true_and]
  congr 1
  unfold seen oriented
  rw [hl]
  cases l <;> simp

theorem loadOne_no (openssl : Bool) (maxBundle : Nat) (m : Mgr) (c : Config) (h : ¬ OkOne openssl maxBundle m c) : loadOne openssl maxBundle m c = (false, m) := by
  unfold loadOne
  by_cases h1 : maxBundle * 2 % U64 > c.maxSum
  · rw [if_pos h1]
  · rw [if_neg h1]
    cases hl : c.layer with
    | none => rfl
    | some l =>
      simp only
      by_cases h2 : (l == .tcpclV4 && !openssl && c.tls) = true
      · rw [if_pos h2]
      · rw [if_neg h2]
        by_cases h3 : c.initOk = true
        · rw [if_neg (by simp [h3])]
          cases h4 : find m.hops c.nextHop with
          | some i => simp
          | none =>
            exfalso
            refine h ⟨by omega, ⟨l, hl⟩, ?_, h3, h4⟩
            intro hv ht
            rw [hl] at hv; cases hv
            simpa [ht] using h2
        · rw [if_pos (by simp [h3])]

theorem loaded_step (openssl : Bool) (maxBundle : Nat) (m : Mgr) (done : List Config) (c : Config) (h : Loaded m done) (hc : OkOne openssl maxBundle m c) :
    Loaded (loadOne openssl maxBundle m c).2 (done ++ [c]) := by
  rw [loadOne_ok _ _ _ _ hc]
  constructor
  · simp [h.ducts]
  · exact h.routes
  · intro k i hi
    simp only at hi
    rw [find_cons, h.ducts] at hi
    split_ifs at hi with hk
    · cases hi; simp [hk]
    · have := h.fst k i hi
      rw [List.getElem?_append_left]
      · exact this
      · cases hx : done[i]? with
        | none => rw [hx] at this; cases this
        | some y => exact (List.getElem?_eq_some_iff.mp hx).1
  · intro i c' hi
    simp only
    rw [find_cons, h.ducts]
    by_cases hl : i < done.length
    · rw [List.getElem?_append_left hl] at hi
      have hs := h.snd i c' hi
      rw [if_neg]
      · exact hs
      · intro hx
        rw [← hx, hc.2.2.2.2] at hs; cases hs
    · rw [List.getElem?_append_right (by omega)] at hi
      have : i - done.length = 0 := by
        by_cases hz : i - done.length = 0
        · exact hz
        · rw [List.getElem?_eq_none (by simp; omega)] at hi; cases hi
      rw [this] at hi
      cases hi
      rw [if_pos rfl]
      congr 1; omega

theorem hops_none (m : Mgr) (done : List Config) (h : Loaded m done) (k : Nat) : find m.hops k = none ↔ k ∉ done.map Config.nextHop := by
  constructor
  · intro hn hm
    obtain ⟨c, hc, hx⟩ := List.mem_map.mp hm
    obtain ⟨i, hi⟩ := List.mem_iff_getElem?.mp hc
    have := h.snd i c hi
    rw [hx, hn] at this; cases this
  · intro hn
    cases hf : find m.hops k with
    | none => rfl
    | some i =>
      exfalso
      have := h.fst k i hf
      cases hx : done[i]? with
      | none => rw [hx] at this; cases this
      | some c =>
        rw [hx] at this
        simp at this
        exact hn (List.mem_map.mpr ⟨c, List.mem_of_getElem? hx, this⟩)

theorem loadAll_iff (openssl : Bool) (maxBundle : Nat) (hb : 2 * maxBundle < 2 ^ 64) (cs : List Config) : ∀ (m : Mgr) (done : List Config), Loaded m done →
    ((loadAll openssl maxBundle m cs).1 = true ↔ (∀ c ∈ cs, Usable openssl maxBundle c) ∧ (cs.map Config.nextHop).Nodup ∧ ∀ c ∈ cs, c.nextHop ∉ done.map Config.nextHop) := by
  have hm : maxBundle * 2 % U64 = 2 * maxBundle := by
    rw [Nat.mod_eq_of_lt (by rw [show U64 = 2 ^ 64 from rfl]; omega)]; omega
  induction cs with
  | nil => intro m done _; simp [loadAll]
  | cons c cs ih =>
    intro m done h
    unfold loadAll
    by_cases hc : OkOne openssl maxBundle m c
    · have hl := loaded_step openssl maxBundle m done c h hc
      have h1 : (loadOne openssl maxBundle m c).1 = true := by rw [loadOne_ok _ _ _ _ hc]
      have hu : Usable openssl maxBundle c := ⟨by rw [← hm]; exact hc.1, hc.2.1, hc.2.2.1, hc.2.2.2.1⟩
      have hn := (hops_none m done h c.nextHop).mp hc.2.2.2.2
      rw [show loadOne openssl maxBundle m c = (true, (loadOne openssl maxBundle m c).2) from Prod.ext h1 rfl]
      simp only
      rw [ih _ _ hl]
      simp only [List.mem_cons, forall_eq_or_imp, List.map_cons, List.nodup_cons, List.map_append, List.mem_append, List.map_nil, List.not_mem_nil, or_false, not_or]
      constructor
      · rintro ⟨a, b, d⟩
        refine ⟨⟨hu, a⟩, ⟨?_, b⟩, hn, fun x hx => (d x hx).1⟩
        intro hx
        obtain ⟨y, hy, he⟩ := List.mem_map.mp hx
        exact (d y hy).2 he
      · rintro ⟨⟨_, a⟩, ⟨b, b2⟩, _, d⟩
        refine ⟨a, b2, fun x hx => ⟨d x hx, fun he => b (List.mem_map.mpr ⟨x, hx, he⟩)⟩⟩
    · rw [loadOne_no _ _ _ _ hc]
      simp only [Bool.false_eq_true, false_iff]
      rintro ⟨a, _, d⟩
      have hu := a c List.mem_cons_self
      exact hc ⟨by rw [hm]; exact hu.room, hu.known, hu.tls, hu.starts, (hops_none m done h c.nextHop).mpr (d c List.mem_cons_self)⟩

theorem loadAll_loaded (openssl : Bool) (maxBundle : Nat) (cs : List Config) : ∀ (m : Mgr) (done : List Config), Loaded m done →
    ∃ k, k ≤ cs.length ∧ Loaded (loadAll openssl maxBundle m cs).2 (done ++ cs.take k) ∧ ((loadAll openssl maxBundle m cs).1 = true ↔ k = cs.length) ∧
      (loadAll openssl maxBundle m cs).2.notes = m.notes ++ (((cs.take k).zipIdx done.length).map fun x => seen x.1 x.2).flatten ∧
      (loadAll openssl maxBundle m cs).2.unacked = m.unacked ∧ (loadAll openssl maxBundle m cs).2.handed = m.handed := by
  induction cs with
  | nil => intro m done h; exact ⟨0, Nat.le_refl _, by simpa [loadAll] using h, by simp [loadAll], by simp [loadAll], rfl, rfl⟩
  | cons c cs ih =>
    intro m done h
    unfold loadAll
    by_cases hc : OkOne openssl maxBundle m c
    · have hl := loaded_step openssl maxBundle m done c h hc
      rw [loadOne_ok _ _ _ _ hc] at hl ⊢
      simp only at hl ⊢
      obtain ⟨k, a, b, d, e, f, g⟩ := ih _ _ hl
      refine ⟨k + 1, by simp; omega, by simpa using b, by rw [d]; simp, ?_, f, g⟩
      rw [e]
      simp [h.ducts]
    · rw [loadOne_no _ _ _ _ hc]
      exact ⟨0, by simp, by simpa using h, by simp, by simp, rfl, rfl⟩

/-! ### Routes -/

/-- What holds after loading: the outducts stay, and each route leads to one of them. -/
structure Routed (cs : List Config) (m : Mgr) (hop : Nat → Option Nat) : Prop where
  ducts : m.ducts = cs
  fst : ∀ h i, find m.hops h = some i → (cs[i]?).map Config.nextHop = some h
  snd : ∀ i c, cs[i]? = some c → find m.hops c.nextHop = some i
  route : ∀ d, match find m.routes d with
    | some i => ∃ c, cs[i]? = some c ∧ hop d = some c.nextHop
    | none => hop d = none
  keys : (m.routes.map Prod.fst).Nodup

theorem erase_keys (m : List (Nat × Nat)) (k : Nat) (h : (m.map Prod.fst).Nodup) : ((erase m k).map Prod.fst).Nodup ∧ k ∉ (erase m k).map Prod.fst := by
  constructor
  · exact List.Nodup.sublist (List.Sublist.map _ List.filter_sublist) h
  · intro hk
    obtain ⟨x, hx, he⟩ := List.mem_map.mp hk
    have := (List.mem_filter.mp hx).2
    simp [he] at this

theorem mem_hops (cs : List Config) (m : Mgr) (hop : Nat → Option Nat) (h : Routed cs m hop) (k : Nat) : (∃ i, find m.hops k = some i) ↔ k ∈ cs.map Config.nextHop := by
  constructor
  · rintro ⟨i, hi⟩
    have := h.fst k i hi
    cases hx : cs[i]? with
    | none => rw [hx] at this; cases this
    | some c =>
      rw [hx] at this; simp at this
      exact List.mem_map.mpr ⟨c, List.mem_of_getElem? hx, this⟩
  · intro hm
    obtain ⟨c, hc, hx⟩ := List.mem_map.mp hm
    obtain ⟨i, hi⟩ := List.mem_iff_getElem?.mp hc
    exact ⟨i, by rw [← hx]; exact h.snd i c hi⟩

theorem routed_reroute (cs : List Config) (m : Mgr) (hop : Nat → Option Nat) (h : Routed cs m hop) (d k : Nat) :
    Routed cs (m.reroute d k).2 (fun x => told cs x (hop x) (.reroute d k)) := by
  unfold Mgr.reroute
  rw [show noRoute = 2 ^ 64 - 1 from rfl]
  by_cases h1 : k = 2 ^ 64 - 1
  · rw [if_pos h1]
    refine ⟨h.ducts, h.fst, h.snd, ?_, (erase_keys _ d h.keys).1⟩
    intro x
    simp only
    rw [find_erase]
    by_cases hx : d = x
    · rw [if_pos hx]
      simp only [told]
      rw [if_neg (by simpa using hx), if_pos h1]
    · rw [if_neg hx]
      simp only [told]
      rw [if_pos hx]
      exact h.route x
  · rw [if_neg h1]
    cases hf : find m.hops k with
    | none =>
      have hk : k ∉ cs.map Config.nextHop := by
        intro hm
        obtain ⟨i, hi⟩ := (mem_hops cs m hop h k).mpr hm
        rw [hf] at hi; cases hi
      refine ⟨h.ducts, h.fst, h.snd, ?_, h.keys⟩
      intro x
      simp only [told]
      have : (if d ≠ x then hop x else if k = 2 ^ 64 - 1 then none else if k ∈ cs.map Config.nextHop then some k else hop x) = hop x := by
        by_cases hx : d = x
        · rw [if_neg (by simpa using hx), if_neg h1, if_neg hk]
        · rw [if_pos hx]
      rw [this]
      exact h.route x
    | some i =>
      have hi := h.fst k i hf
      obtain ⟨ek1, ek2⟩ := erase_keys m.routes d h.keys
      refine ⟨h.ducts, h.fst, h.snd, ?_, by simp only [List.map_cons, List.nodup_cons]; exact ⟨ek2, ek1⟩⟩
      intro x
      simp only
      rw [find_cons, find_erase]
      by_cases hx : d = x
      · rw [if_pos hx]
        simp only [told]
        rw [if_neg (by simpa using hx), if_neg h1, if_pos ((mem_hops cs m hop h k).mp ⟨i, hf⟩)]
        cases hc : cs[i]? with
        | none => rw [hc] at hi; cases hi
        | some c => rw [hc] at hi; simp at hi; exact ⟨c, rfl, by rw [hi]⟩
      · rw [if_neg hx, if_neg hx]
        simp only [told]
        rw [if_pos hx]
        exact h.route x

theorem forward_fields (m : Mgr) (d : Nat) (b : Bytes) : (m.forward d b).2.ducts = m.ducts ∧ (m.forward d b).2.hops = m.hops ∧ (m.forward d b).2.routes = m.routes := by
  unfold Mgr.forward
  split
  · exact ⟨rfl, rfl, rfl⟩
  · split
    · exact ⟨rfl, rfl, rfl⟩
    · split_ifs <;> exact ⟨rfl, rfl, rfl⟩

theorem routed_step (cs : List Config) (m : Mgr) (hop : Nat → Option Nat) (h : Routed cs m hop) (op : Op) :
    Routed cs (m.step op) (fun x => told cs x (hop x) op) := by
  cases op with
  | reroute d k => exact routed_reroute cs m hop h d k
  | forward d b =>
    obtain ⟨a, e, f⟩ := forward_fields m d b
    exact ⟨by simp only [Mgr.step]; rw [a]; exact h.ducts, by simp only [Mgr.step]; rw [e]; exact h.fst, by simp only [Mgr.step]; rw [e]; exact h.snd,
      by simp only [Mgr.step]; rw [f]; exact h.route, by simp only [Mgr.step]; rw [f]; exact h.keys⟩
  | acked i => exact ⟨h.ducts, h.fst, h.snd, h.route, h.keys⟩

theorem routed_run (cs : List Config) (ops : List Op) : ∀ (m : Mgr) (hop : Nat → Option Nat), Routed cs m hop → Routed cs (m.run ops) (fun x => ops.foldl (told cs x) (hop x)) := by
  induction ops with
  | nil => intro m hop h; exact h
  | cons op ops ih => intro m hop h; exact ih (m.step op) _ (routed_step cs m hop h op)

theorem routed_load (openssl : Bool) (maxBundle : Nat) (m0 m : Mgr) (cs : List Config) (h : load openssl maxBundle m0 cs = (true, m)) : Routed cs m (fun _ => none) := by
  obtain ⟨k, a, b, d, e, f⟩ := loadAll_loaded openssl maxBundle cs { m0 with routes := [], hops := [], ducts := [] } []
    ⟨rfl, rfl, by simp [find_nil], by simp⟩
  unfold load at h
  rw [h] at b d
  have hk : k = cs.length := d.mp rfl
  rw [hk, List.take_length, List.nil_append] at b
  exact ⟨b.ducts, b.fst, b.snd, by intro x; rw [b.routes]; rfl, by rw [b.routes]; simp⟩

theorem reached (openssl : Bool) (maxBundle : Nat) (m0 m : Mgr) (cs : List Config) (h : load openssl maxBundle m0 cs = (true, m)) (ops : List Op) :
    Routed cs (m.run ops) (fun x => nextHop cs x ops) := routed_run cs ops m _ (routed_load openssl maxBundle m0 m cs h)

/-! ### The limit -/

theorem limit_step (m : Mgr) (op : Op) (h : ∀ (i : Nat) (c : Config), m.ducts[i]? = some c → m.unacked i ≤ c.maxBundles + 1) :
    ∀ (i : Nat) (c : Config), (m.step op).ducts[i]? = some c → (m.step op).unacked i ≤ c.maxBundles + 1 := by
  cases op with
  | reroute d k =>
    simp only [Mgr.step, Mgr.reroute]
    split_ifs
    · exact h
    · split <;> exact h
  | forward d b =>
    simp only [Mgr.step, Mgr.forward]
    split
    · exact h
    · rename_i j hj
      split
      · exact h
      · rename_i c hc
        split_ifs with hl
        · exact h
        · intro i c' hi
          simp only at hi ⊢
          split_ifs with hx
          · subst hx
            rw [hc] at hi; cases hi; omega
          · exact h i c' hi
  | acked j =>
    intro i c hi
    have := h i c hi
    simp only [Mgr.step, Mgr.acked]
    split_ifs with hx
    · subst hx; omega
    · exact this

theorem limit_run (ops : List Op) : ∀ m : Mgr, (∀ (i : Nat) (c : Config), m.ducts[i]? = some c → m.unacked i ≤ c.maxBundles + 1) →
    ∀ (i : Nat) (c : Config), (m.run ops).ducts[i]? = some c → (m.run ops).unacked i ≤ c.maxBundles + 1 := by
  induction ops with
  | nil => intro m h; exact h
  | cons op ops ih => intro m h; exact ih (m.step op) (limit_step m op h)

theorem fill (d i : Nat) (c : Config) (b : Bytes) (n : Nat) : ∀ m : Mgr, find m.routes d = some i → m.ducts[i]? = some c → m.unacked i + n ≤ c.maxBundles + 1 →
    (m.run (List.replicate n (.forward d b))).unacked i = m.unacked i + n := by
  induction n with
  | zero => intro m _ _ _; rfl
  | succ n ih =>
    intro m h1 h2 h3
    rw [List.replicate_succ]
    show ((m.step (.forward d b)).run _).unacked i = _
    have hs : m.step (.forward d b) = { m with handed := m.handed ++ [(i, b)], unacked := fun j => if j = i then m.unacked i + 1 else m.unacked j } := by
      simp only [Mgr.step, Mgr.forward, h1, h2]
      rw [if_neg (by omega)]
    generalize hm : ({ m with handed := m.handed ++ [(i, b)], unacked := fun j => if j = i then m.unacked i + 1 else m.unacked j } : Mgr) = m' at hs
    have hu : m'.unacked i = m.unacked i + 1 := by rw [← hm]; simp
    rw [hs, ih m' (by rw [← hm]; exact h1) (by rw [← hm]; exact h2) (by rw [hu]; omega), hu]
    omega

/-! ### What is listed -/

theorem listed_eq (m : Mgr) (i : Nat) (h : i < m.ducts.length) : listed m i = (m.routes.filter fun r => r.2 == i).map Prod.fst := by
  unfold listed Mgr.capabilities
  rw [List.getElem?_map, List.getElem?_zipIdx]
  rw [List.getElem?_eq_getElem h]
  simp

theorem find_of_mem (m : List (Nat × Nat)) (hn : (m.map Prod.fst).Nodup) (k v : Nat) (h : (k, v) ∈ m) : find m k = some v := by
  induction m with
  | nil => cases h
  | cons x m ih =>
    obtain ⟨a, w⟩ := x
    rw [List.map_cons, List.nodup_cons] at hn
    rw [find_cons]
    rcases List.mem_cons.mp h with he | he
    · cases he; simp
    · rw [if_neg]
      · exact ih hn.2 he
      · intro hx
        exact hn.1 (List.mem_map.mpr ⟨(k, v), he, hx.symm⟩)

end Hdtn.OutMgr
