import Mathlib.Tactic.SplitIfs
import Verif.Sdnv.Props
import Verif.LtpRng.Props
import Verif.LtpUdpManager.Spec

/-!
Lemmas for the LTP engines that share a UDP port.
-/

namespace Hdtn.LtpUdpManager

open Spec Hdtn.Sdnv Hdtn.Sdnv.Spec Hdtn.LtpRng Hdtn.LtpWire Hdtn.LtpWire.Spec

theorem decode_sdnv {p : Bytes} {v : Nat} (h : IsSdnv64 p v) (more : Bytes) :
    decodeU64Classic (p ++ more) = (v, p.length) ∧ 0 < p.length := by
  have hp : p.length ≠ 0 := by
    intro h0
    rw [List.length_eq_zero_iff.mp h0] at h
    exact h.2.1
  have ht : (p ++ more).take p.length = p := by simp
  refine ⟨((C02_decode64_success_iff (p ++ more) v p.length).mpr ⟨more, ?_, ?_, ?_⟩).1, by omega⟩
  · rw [ht]
  · rw [ht]
  · rw [ht]; exact h

theorem decode_take {p : Bytes} {v n : Nat} (h : IsSdnv64 p v) (more : Bytes) (hn : 10 ≤ n) :
    decodeU64Classic ((p ++ more).take n) = (v, p.length) ∧ 0 < p.length := by
  have : (p ++ more).take n = p ++ more.take (n - p.length) := by
    rw [List.take_append, List.take_of_length_le (by have := h.1; omega)]
  rw [this]
  exact decode_sdnv h _

theorem split_two {s : Bytes} {a b : Nat} (h : Split s [a, b] []) : ∃ p q, s = p ++ q ∧ IsSdnv64 p a ∧ IsSdnv64 q b := by
  cases h with
  | @cons p _ buf _ _ hp h' =>
    cases h' with
    | @cons q _ buf' _ _ hq h'' =>
      cases h'' with
      | nil => exact ⟨p, q, by simp, hp, hq⟩

/-- The first byte of a segment and its way. -/
theorem content_way {flags : Nat} {p : Bytes} {c : Content} (h : IsContent flags p c) :
    direction flags = if bySender c then .toReceiver else .toSender := by
  cases h with
  | plainData hf => rcases hf with rfl | rfl | rfl <;> rfl
  | checkpoint hf => rcases hf with rfl | rfl | rfl <;> rfl
  | report => rfl
  | reportAck => rfl
  | cancelBySender => rfl
  | cancelByReceiver => rfl
  | cancelAckToSender => rfl
  | cancelAckToReceiver => rfl

/-- What `HandleUdpReceive` does with a segment. -/
theorem receive_segment {m : Mgr} {w stale : Bytes} {e : Event} (ho : m.opened = true) (h : IsSegment w e) :
    m.receive w stale = if bySender e.content then m.toReceiver e.id.engine w else m.toSender e.id.number w := by
  obtain ⟨flags, s, x, p, t, n, rfl, hf, hs, -, -, -, hc, -⟩ := h
  obtain ⟨p1, q1, rfl, hp, hq⟩ := split_two hs
  have hp0 := (decode_sdnv hp []).2
  have hq0 := (decode_sdnv hq []).2
  have hb : (UInt8.ofNat flags).toNat = flags := by
    rw [UInt8.toNat_ofNat']; omega
  unfold Mgr.receive
  rw [if_neg (by rw [ho]; decide), if_neg (by simp only [List.length_cons, List.length_append]; omega)]
  simp only [List.cons_append, List.headD_cons, hb, content_way hc]
  have h1 := decode_take hp (q1 ++ n :: (x ++ (p ++ t)) ++ stale) (n := 99) (by omega)
  have h2 := decode_take hq (n :: (x ++ (p ++ t)) ++ stale) (n := 89) (by omega)
  have e1 : (List.drop 1 (UInt8.ofNat flags :: (p1 ++ q1 ++ n :: (x ++ (p ++ t)) ++ stale))) =
      p1 ++ (q1 ++ n :: (x ++ (p ++ t)) ++ stale) := by simp
  have e2 : (List.drop (1 + p1.length) (UInt8.ofNat flags :: (p1 ++ q1 ++ n :: (x ++ (p ++ t)) ++ stale))) =
      q1 ++ (n :: (x ++ (p ++ t)) ++ stale) := by
    rw [Nat.add_comm, List.drop_succ_cons]; simp
  rw [e1, h1.1]
  by_cases hby : bySender e.content = true
  · rw [if_pos hby, if_pos hby]
    simp only
    rw [if_neg (Nat.ne_of_gt hp0)]
  · rw [if_neg hby, if_neg hby]
    simp only
    rw [if_neg (Nat.ne_of_gt hp0), e2, h2.1]
    simp only
    rw [if_neg (Nat.ne_of_gt hq0)]

theorem find_some {l : List Engine} {r : Nat} {e : Engine} (h : find l r = some e) : e ∈ l ∧ e.remote = r := by
  unfold find at h
  exact ⟨List.mem_of_find?_eq_some h, by simpa using List.find?_some h⟩

theorem find_none {l : List Engine} {r : Nat} (h : find l r = none) : ∀ e ∈ l, e.remote ≠ r := by
  unfold find at h
  intro e he
  simpa using List.find?_eq_none.mp h e he

theorem find_mem {l : List Engine} {r : Nat} {e : Engine} (he : e ∈ l) (hr : e.remote = r) : ∃ e', find l r = some e' := by
  cases h : find l r with
  | some e' => exact ⟨e', rfl⟩
  | none => exact absurd hr (find_none h e he)

theorem mem_change {l : List Engine} {r : Nat} {f : Engine → Engine} {e : Engine} :
    e ∈ change l r f ↔ ∃ a ∈ l, e = if a.remote = r then f a else a := by
  unfold change
  rw [List.mem_map]
  constructor
  · rintro ⟨a, ha, rfl⟩; exact ⟨a, ha, rfl⟩
  · rintro ⟨a, ha, rfl⟩; exact ⟨a, ha, rfl⟩

theorem post_same (e : Engine) (d : Bytes) : (e.post d).remote = e.remote ∧ (e.post d).index = e.index := by
  unfold Engine.post; split_ifs <;> exact ⟨rfl, rfl⟩

theorem process_same (e : Engine) : e.process.remote = e.remote ∧ e.process.index = e.index := by
  unfold Engine.process; split <;> exact ⟨rfl, rfl⟩

theorem post_got (e : Engine) (d : Bytes) : Got d e (e.post d) := by
  unfold Engine.post Got given
  split_ifs with h
  · exact ⟨rfl, rfl, rfl, rfl, .inr ⟨h, rfl, rfl, rfl⟩⟩
  · exact ⟨rfl, rfl, rfl, rfl, .inl ⟨by omega, by simp, rfl⟩⟩

theorem change_only (l : List Engine) (r : Nat) (d : Bytes) : OnlyTo d r l (change l r (·.post d)) := by
  unfold OnlyTo change
  induction l with
  | nil => exact .nil
  | cons a l ih =>
    rw [List.map_cons]
    refine .cons ?_ ih
    split_ifs with h
    · exact post_got a d
    · rfl

/-- What holds at all times. -/
structure Inv (m : Mgr) : Prop where
  len : m.slots.length = 256
  next : 1 ≤ m.next ∧ m.next ≤ 8
  index : ∀ e ∈ m.tx, 1 ≤ e.index ∧ e.index < m.next
  slot : ∀ e ∈ m.tx, m.slots[e.index]? = some (some e.remote)
  owner : m.opened = true → ∀ i r, m.slots[i]? = some (some r) → ∃ e ∈ m.tx, e.remote = r ∧ e.index = i
  free : ∀ i, m.next ≤ i → ∀ r, m.slots[i]? ≠ some (some r)
  cached : ∀ r, m.cache = some r → ∃ e ∈ m.rx, e.remote = r
  one : ∀ e ∈ m.tx, ∀ e' ∈ m.tx, e.remote = e'.remote → e.index = e'.index

theorem inv_init : Inv {} := by
  refine ⟨List.length_replicate, by decide, fun _ h => (nomatch h), fun _ h => (nomatch h), ?_, ?_, fun _ h => (nomatch h), fun _ h => (nomatch h)⟩
  · intro _ i r h
    rw [List.getElem?_replicate] at h
    split_ifs at h <;> cases h
  · intro i _ r h
    rw [List.getElem?_replicate] at h
    split_ifs at h <;> cases h

theorem inv_add {m : Mgr} (h : Inv m) (induct : Bool) (remote size : Nat) : Inv (m.add induct remote size).2 := by
  unfold Mgr.add
  by_cases h1 : 7 < m.next ∧ induct = false
  · rw [if_pos h1]; exact h
  rw [if_neg h1]
  by_cases h2 : (find (if induct then m.rx else m.tx) remote).isSome = true
  · rw [if_pos h2]; exact h
  rw [if_neg h2]
  cases induct with
  | true =>
    simp only [if_true]
    refine ⟨h.len, h.next, h.index, h.slot, h.owner, h.free, ?_, h.one⟩
    intro r hr
    obtain ⟨e, he, h3⟩ := h.cached r hr
    exact ⟨e, List.mem_append_left _ he, h3⟩
  | false =>
    have hn : m.next ≤ 7 := by
      by_contra hc
      exact h1 ⟨by omega, rfl⟩
    have hm : m.next % 256 = m.next := by omega
    have hnone : find m.tx remote = none := by simpa using h2
    simp only [Bool.false_eq_true, if_false, hm]
    have hget : ∀ i, (m.slots.set m.next (some remote))[i]? = if m.next = i then some (some remote) else m.slots[i]? := by
      intro i
      rw [List.getElem?_set]
      by_cases hi : m.next = i
      · rw [if_pos hi, if_pos hi, if_pos (by rw [h.len]; omega)]
      · rw [if_neg hi, if_neg hi]
    refine ⟨by simp [h.len], by simp only; omega, ?_, ?_, ?_, ?_, h.cached, ?_⟩
    · intro e he
      rcases List.mem_append.mp he with he | he
      · have := h.index e he
        simp only; omega
      · rw [List.mem_singleton] at he
        subst he
        simp only; have := h.next; omega
    · intro e he
      simp only
      rw [hget]
      rcases List.mem_append.mp he with he | he
      · have := h.index e he
        rw [if_neg (by omega)]
        exact h.slot e he
      · rw [List.mem_singleton] at he
        subst he
        rw [if_pos rfl]
    · intro ho i r hi
      simp only at hi ⊢
      rw [hget] at hi
      split_ifs at hi with hc
      · simp only [Option.some.injEq] at hi
        exact ⟨_, List.mem_append_right _ (List.mem_singleton.mpr rfl), hi, hc⟩
      · obtain ⟨e, he, h3⟩ := h.owner ho i r hi
        exact ⟨e, List.mem_append_left _ he, h3⟩
    · intro i hi r
      simp only at hi ⊢
      rw [hget, if_neg (by omega)]
      exact h.free i (by omega) r
    · intro e he e' he' hee
      simp only at he he' ⊢
      rcases List.mem_append.mp he with he | he <;> rcases List.mem_append.mp he' with he' | he'
      · exact h.one e he e' he' hee
      · rw [List.mem_singleton] at he'
        subst he'
        exact absurd hee (find_none hnone e he)
      · rw [List.mem_singleton] at he
        subst he
        exact absurd hee.symm (find_none hnone e' he')
      · rw [List.mem_singleton] at he he'
        rw [he, he']

theorem inv_remove {m : Mgr} (h : Inv m) (induct : Bool) (remote : Nat) : Inv (m.remove induct remote) := by
  unfold Mgr.remove
  cases hf : find (if induct then m.rx else m.tx) remote with
  | none => exact h
  | some e0 =>
    simp only
    cases induct with
    | true =>
      rw [if_pos rfl]
      refine ⟨h.len, h.next, h.index, h.slot, h.owner, h.free, ?_, h.one⟩
      intro r hr
      simp only at hr ⊢
      split_ifs at hr with hc
      obtain ⟨e, he, h3⟩ := h.cached r hr
      refine ⟨e, List.mem_filter.mpr ⟨he, ?_⟩, h3⟩
      simp only [decide_eq_true_eq]
      rintro rfl
      rw [h3] at hc
      exact hc hr
    | false =>
      rw [if_neg (by decide)]
      obtain ⟨he0, hr0⟩ := find_some hf
      simp only [Bool.false_eq_true, if_false] at he0
      have hget : ∀ i, (m.slots.set e0.index none)[i]? = if e0.index = i then some none else m.slots[i]? := by
        intro i
        rw [List.getElem?_set]
        by_cases hi : e0.index = i
        · have := h.index e0 he0
          have := h.next
          rw [if_pos hi, if_pos hi, if_pos (by rw [h.len]; omega)]
        · rw [if_neg hi, if_neg hi]
      have hne : ∀ e ∈ m.tx, e.remote ≠ remote → e0.index ≠ e.index := by
        intro e he hr hi
        have h1 := h.slot e he
        have h2 := h.slot e0 he0
        rw [hi, h1] at h2
        simp only [Option.some.injEq] at h2
        exact hr (h2.trans hr0)
      refine ⟨by simp [h.len], h.next, ?_, ?_, ?_, ?_, h.cached, ?_⟩
      · intro e he
        exact h.index e (List.mem_filter.mp he).1
      · intro e he
        obtain ⟨he, hr⟩ := List.mem_filter.mp he
        simp only [decide_eq_true_eq] at hr
        simp only
        rw [hget, if_neg (hne e he hr)]
        exact h.slot e he
      · intro ho i r hi
        simp only at hi ⊢
        rw [hget] at hi
        split_ifs at hi with hc
        · simp at hi
        · obtain ⟨e, he, h3, h4⟩ := h.owner ho i r hi
          refine ⟨e, List.mem_filter.mpr ⟨he, ?_⟩, h3, h4⟩
          simp only [decide_eq_true_eq]
          intro hc'
          exact hc ((h.one e0 he0 e he (hr0.trans hc'.symm)).trans h4)
      · intro i hi r
        simp only
        rw [hget]
        split_ifs with hc
        · simp
        · exact h.free i hi r
      · intro e he e' he'
        exact h.one e (List.mem_filter.mp he).1 e' (List.mem_filter.mp he').1

theorem add_cases (m : Mgr) (induct : Bool) (remote size : Nat) :
    (m.add induct remote size).2 = m ∨
    (m.add induct remote size).2 = { m with rx := m.rx ++ [{ remote := remote, index := m.next % 256, size := size }] } ∨
    (m.add induct remote size).2 = { m with
      tx := m.tx ++ [{ remote := remote, index := m.next % 256, size := size }]
      next := m.next + 1
      slots := m.slots.set (m.next % 256) (some remote) } := by
  unfold Mgr.add
  by_cases h1 : 7 < m.next ∧ induct = false
  · rw [if_pos h1]; exact .inl rfl
  rw [if_neg h1]
  by_cases h2 : (find (if induct then m.rx else m.tx) remote).isSome = true
  · rw [if_pos h2]; exact .inl rfl
  rw [if_neg h2]
  cases induct
  · exact .inr (.inr rfl)
  · exact .inr (.inl rfl)

theorem remove_cases (m : Mgr) (induct : Bool) (remote : Nat) :
    m.remove induct remote = m ∨
    m.remove induct remote = { m with
      cache := if m.cache = some remote then none else m.cache
      rx := m.rx.filter fun e => e.remote ≠ remote } ∨
    ∃ i, m.remove induct remote = { m with
      slots := m.slots.set i none
      tx := m.tx.filter fun e => e.remote ≠ remote } := by
  unfold Mgr.remove
  cases find (if induct then m.rx else m.tx) remote with
  | none => exact .inl rfl
  | some e =>
    cases induct
    · exact .inr (.inr ⟨e.index, rfl⟩)
    · exact .inr (.inl rfl)

theorem inv_shutdown {m : Mgr} (h : Inv m) : Inv m.shutdown := by
  refine ⟨h.len, h.next, ?_, ?_, ?_, h.free, ?_, ?_⟩ <;> simp [Mgr.shutdown]

theorem inv_rx {m : Mgr} (h : Inv m) (r : Nat) (f : Engine → Engine) (hf : ∀ e, (f e).remote = e.remote) (c : Option Nat)
    (hc : ∀ r', c = some r' → ∃ e ∈ m.rx, e.remote = r') : Inv { m with rx := change m.rx r f, cache := c } := by
  refine ⟨h.len, h.next, h.index, h.slot, h.owner, h.free, ?_, h.one⟩
  intro r' hr'
  obtain ⟨e, he, h3⟩ := hc r' hr'
  refine ⟨_, mem_change.mpr ⟨e, he, rfl⟩, ?_⟩
  split_ifs
  · rw [hf, h3]
  · exact h3

theorem inv_tx {m : Mgr} (h : Inv m) (r : Nat) (f : Engine → Engine) (hf : ∀ e, (f e).remote = e.remote ∧ (f e).index = e.index) :
    Inv { m with tx := change m.tx r f } := by
  have key : ∀ e ∈ change m.tx r f, ∃ a ∈ m.tx, e.remote = a.remote ∧ e.index = a.index := by
    intro e he
    obtain ⟨a, ha, rfl⟩ := mem_change.mp he
    refine ⟨a, ha, ?_⟩
    split_ifs
    · exact hf a
    · exact ⟨rfl, rfl⟩
  refine ⟨h.len, h.next, ?_, ?_, ?_, h.free, h.cached, ?_⟩
  · intro e he
    obtain ⟨a, ha, h1, h2⟩ := key e he
    rw [h2]; exact h.index a ha
  · intro e he
    obtain ⟨a, ha, h1, h2⟩ := key e he
    rw [h1, h2]; exact h.slot a ha
  · intro ho i r' hi
    obtain ⟨e, he, h3, h4⟩ := h.owner ho i r' hi
    refine ⟨_, mem_change.mpr ⟨e, he, rfl⟩, ?_⟩
    split_ifs
    · rw [(hf e).1, (hf e).2]; exact ⟨h3, h4⟩
    · exact ⟨h3, h4⟩
  · intro e he e' he' hr
    obtain ⟨a, ha, h1, h2⟩ := key e he
    obtain ⟨b, hb, h3, h4⟩ := key e' he'
    rw [h2, h4]
    exact h.one a ha b hb (by rw [← h1, hr, h3])

/-- `toReceiver` is defined, and what it does. -/
theorem toReceiver_eq {m : Mgr} (h : Inv m) (r : Nat) (d : Bytes) :
    ∃ c, m.toReceiver r d = some { m with rx := change m.rx r (·.post d), cache := c } ∧
      ∀ r', c = some r' → ∃ e ∈ m.rx, e.remote = r' := by
  unfold Mgr.toReceiver
  split_ifs with hc
  · obtain ⟨e, he, hr⟩ := h.cached r hc
    obtain ⟨e', he'⟩ := find_mem he hr
    rw [he']
    exact ⟨m.cache, rfl, h.cached⟩
  · cases hf : find m.rx r with
    | none =>
      refine ⟨m.cache, ?_, h.cached⟩
      have : change m.rx r (·.post d) = m.rx := by
        unfold change
        conv_rhs => rw [← List.map_id m.rx]
        apply List.map_congr_left
        intro e he
        rw [if_neg (find_none hf e he)]; rfl
      simp only [this]
    | some e =>
      refine ⟨some r, rfl, ?_⟩
      intro r' hr'
      simp only [Option.some.injEq] at hr'
      subst hr'
      exact ⟨e, (find_some hf).1, (find_some hf).2⟩

theorem engineIndexOf_lt (s : Nat) : engineIndexOf s < 256 := by
  unfold engineIndexOf; exact Nat.mod_lt _ (by decide)

/-- `toSender` is defined, and what it does: the engine with the index of the session number, if there is one. -/
theorem toSender_eq {m : Mgr} (h : Inv m) (ho : m.opened = true) (s : Nat) (d : Bytes) :
    (m.toSender s d = some m ∧ ∀ e ∈ m.tx, e.index ≠ engineIndexOf s) ∨
    (∃ e ∈ m.tx, e.index = engineIndexOf s ∧ m.toSender s d = some { m with tx := change m.tx e.remote (·.post d) }) := by
  unfold Mgr.toSender
  have hlt := engineIndexOf_lt s
  rcases hs : m.slots[engineIndexOf s]? with _ | _ | r
  · rw [List.getElem?_eq_none_iff, h.len] at hs
    omega
  · left
    refine ⟨rfl, ?_⟩
    intro e he hi
    have := h.slot e he
    rw [hi, hs] at this
    simp at this
  · right
    obtain ⟨e, he, hr, hi⟩ := h.owner ho _ _ hs
    refine ⟨e, he, hi, ?_⟩
    obtain ⟨e', he'⟩ := find_mem he hr
    simp only [he', hr]

/-- What `HandleUdpReceive` can do. -/
inductive Effect (m : Mgr) (d : Bytes) : Option Mgr → Prop
  | nothing : Effect m d (some m)
  | undefined : 32 ≤ (d.headD 0).toNat → Effect m d none
  | shutdown : (d.headD 0).toNat ∉ [0, 1, 2, 3, 4, 7, 8, 9, 12, 13, 14, 15] → Effect m d (some m.shutdown)
  | induct (r : Nat) (c : Option Nat) : (∀ r', c = some r' → ∃ e ∈ m.rx, e.remote = r') →
    Effect m d (some { m with rx := change m.rx r (·.post d), cache := c })
  | outduct (r : Nat) : Effect m d (some { m with tx := change m.tx r (·.post d) })

theorem direction_undefined {f : Nat} (h : direction f = .undefined) : 32 ≤ f := by
  by_contra hc
  unfold direction at h
  rw [if_neg hc] at h
  simp only at h
  split_ifs at h

theorem direction_small {f : Nat} (h : f < 32) :
    (direction f = .invalid ↔ f ∉ [0, 1, 2, 3, 4, 7, 8, 9, 12, 13, 14, 15]) ∧ direction f ≠ .undefined := by
  have : ∀ f : Fin 32, (direction f.val = .invalid ↔ f.val ∉ [0, 1, 2, 3, 4, 7, 8, 9, 12, 13, 14, 15]) ∧ direction f.val ≠ .undefined := by
    decide +kernel
  exact this ⟨f, h⟩

theorem direction_large {f : Nat} (h : 32 ≤ f) : direction f = .undefined := by
  unfold direction; rw [if_pos h]

theorem receive_effect {m : Mgr} (h : Inv m) (d stale : Bytes) : Effect m d (m.receive d stale) := by
  unfold Mgr.receive
  by_cases ho : m.opened = false
  · rw [if_pos ho]; exact .nothing
  rw [if_neg ho]
  by_cases hl : d.length ≤ 2
  · rw [if_pos hl]; exact .nothing
  rw [if_neg hl]
  have hd : (d ++ stale).headD 0 = d.headD 0 := by
    cases d with
    | nil => simp at hl
    | cons a l => rfl
  simp only [hd]
  have hopen : m.opened = true := by simpa using ho
  have hR : ∀ r, Effect m d (m.toReceiver r d) := by
    intro r
    obtain ⟨c, hc, hc'⟩ := toReceiver_eq h r d
    rw [hc]; exact .induct r c hc'
  have hS : ∀ s, Effect m d (m.toSender s d) := by
    intro s
    rcases toSender_eq h hopen s d with ⟨h1, -⟩ | ⟨e, -, -, h1⟩
    · rw [h1]; exact .nothing
    · rw [h1]; exact .outduct _
  cases hw : direction (d.headD 0).toNat with
  | undefined => exact .undefined (direction_undefined hw)
  | invalid =>
    refine .shutdown ?_
    have : (d.headD 0).toNat < 32 := by
      by_contra hc
      rw [direction_large (by omega)] at hw
      cases hw
    exact (direction_small this).1.mp hw
  | toReceiver =>
    simp only
    split_ifs
    · exact .nothing
    · exact hR _
  | toSender =>
    simp only
    split_ifs
    · exact .nothing
    · exact .nothing
    · exact hS _

theorem inv_step {m m' : Mgr} (h : Inv m) (ev : Ev) (hs : m.step ev = some m') : Inv m' := by
  cases ev with
  | add i r s => cases hs; exact inv_add h i r s
  | remove i r => cases hs; exact inv_remove h i r
  | datagram d stale =>
    have he := receive_effect h d stale
    simp only [Mgr.step] at hs
    rw [hs] at he
    cases he with
    | nothing => exact h
    | shutdown _ => exact inv_shutdown h
    | induct r c hc => exact inv_rx h r _ (fun e => (post_same e d).1) c hc
    | outduct r => exact inv_tx h r _ (fun e => post_same e d)
  | process i r =>
    cases i with
    | true => cases hs; exact inv_rx h r _ (fun e => (process_same e).1) m.cache h.cached
    | false => cases hs; exact inv_tx h r _ process_same

theorem inv_run {es : List Ev} : ∀ {m m' : Mgr}, Inv m → m.run es = some m' → Inv m' := by
  induction es with
  | nil => intro m m' h hr; cases hr; exact h
  | cons e es ih =>
    intro m m' h hr
    rw [Mgr.run] at hr
    cases hs : m.step e with
    | none => rw [hs] at hr; cases hr
    | some m1 =>
      rw [hs] at hr
      exact ih (inv_step h e hs) hr

end Hdtn.LtpUdpManager
