import Verif.CustodyManager.Steps

namespace Hdtn.CustodyManager

open Hdtn.HashMap16 Hdtn.FragmentSet Hdtn.Sdnv Hdtn.BundleView6 Hdtn.BundleView6.Spec
open Hdtn.CustodyManager.Spec
open Hdtn.AdminRecord6 (DtnTime CustodySignal StatusReport Content Record)
open Hdtn.Bpv6Primary (Primary)

/-! ### The custody transfer enhancement block -/

theorem hasCteb_unique {v : View} {x y : Nat} {c d : Eid} (h1 : HasCteb v x c) (h2 : HasCteb v y d) :
    x = y ∧ c = d := by
  obtain ⟨b, e, hb, hbody, hp⟩ := h1
  obtain ⟨b', e', hb', hbody', hp'⟩ := h2
  rw [hb] at hb'
  simp only [List.cons.injEq, and_true] at hb'
  subst hb'
  rw [hbody] at hbody'
  simp only [Body.ext.injEq, Bpv6Canonical.Ext.cteb.injEq] at hbody'
  obtain ⟨rfl, rfl⟩ := hbody'
  rw [hp] at hp'
  simp only [Option.some.injEq, Prod.mk.injEq] at hp'
  obtain ⟨h1, h2⟩ := hp'
  exact ⟨rfl, by cases c; cases d; simp_all⟩

theorem findCteb_has {v : View} {x : Nat} {c : Eid} (h : HasCteb v x c) :
    findCteb v = some (some (x, decide (v.primary.custodian = c))) := by
  obtain ⟨b, e, hb, hbody, hp⟩ := h
  unfold findCteb
  rw [hb]
  simp only [hbody, hp]

theorem findCteb_nil {v : View} (h : v.byType 10 = []) : findCteb v = some none := by
  unfold findCteb
  rw [h]

theorem findCteb_none {v : View} (h : v.byType 10 ≠ []) (hn : ¬ ∃ x c, HasCteb v x c) :
    findCteb v = none := by
  unfold findCteb
  split
  · rename_i h0; exact absurd h0 h
  · rename_i b hb
    split
    · rename_i x e hbody
      split
      · rename_i n s hp
        exact absurd ⟨x, ⟨n, s⟩, b, e, hb, hbody, hp⟩ hn
      · rfl
    · rfl
  · rfl

/-- The three cases of a bundle that is not malformed. -/
theorem cteb_cases (v : View) : v.byType 10 = [] ∨ (∃ x c, HasCteb v x c) ∨
    v.byType 10 ≠ [] ∧ ¬ ∃ x c, HasCteb v x c := by
  by_cases h : v.byType 10 = []
  · exact .inl h
  · by_cases h2 : ∃ x c, HasCteb v x c
    · exact .inr (.inl h2)
    · exact .inr (.inr ⟨h, h2⟩)

theorem payloadSize_some {v : View} (h : (v.byType 1).length = 1) :
    ∃ b, v.byType 1 = [b] ∧ v.payloadSize = some b.block.data.length := by
  unfold View.payloadSize
  match hb : v.byType 1, h with
  | [b], _ => exact ⟨b, rfl, rfl⟩

theorem payloadSize_none {v : View} (h : (v.byType 1).length ≠ 1) : v.payloadSize = none := by
  unfold View.payloadSize
  match hb : v.byType 1 with
  | [] => rfl
  | [b] => rw [hb] at h; simp at h
  | _ :: _ :: _ => rfl

theorem getInfo_none_iff (m : Mgr) (v : View) : getInfo m v = none ↔ Malformed m.aware v := by
  unfold getInfo Malformed
  by_cases h : (v.byType 1).length = 1
  · obtain ⟨b, hb, hp⟩ := payloadSize_some h
    rw [hp]
    simp only [h, ne_eq, not_true, false_or]
    cases ha : m.aware
    · simp
    · simp only [if_true, true_and]
      rcases cteb_cases v with h1 | ⟨x, c, h1⟩ | ⟨h1, h2⟩
      · rw [findCteb_nil h1]; simp [h1]
      · rw [findCteb_has h1]
        simp only [false_iff, not_and, not_not, reduceCtorEq]
        exact fun _ => ⟨x, c, h1⟩
      · rw [findCteb_none h1 h2]
        simp only [true_iff]
        exact ⟨h1, h2⟩
  · rw [payloadSize_none h]
    simp [h]

theorem malformed_payload {aware : Bool} {v : View} (h : ¬ Malformed aware v) :
    (v.byType 1).length = 1 := by
  by_contra hc
  exact h (.inl hc)

/-- The received identifier, if the node knows CTEBs and the bundle has a valid one. -/
theorem getInfo_valid {m : Mgr} {v : View} {x : Nat} (h : (v.byType 1).length = 1)
    (ha : m.aware = true) (hv : ValidCteb v x) :
    ∃ n, v.payloadSize = some n ∧ getInfo m v = some ⟨v.primary, n, some x⟩ := by
  obtain ⟨b, _, hp⟩ := payloadSize_some h
  refine ⟨_, hp, ?_⟩
  unfold getInfo
  rw [hp, ha, findCteb_has hv]
  simp

theorem getInfo_invalid {m : Mgr} {v : View} (h : ¬ Malformed m.aware v)
    (hv : ¬ (m.aware = true ∧ ∃ x, ValidCteb v x)) :
    ∃ n, v.payloadSize = some n ∧ getInfo m v = some ⟨v.primary, n, none⟩ := by
  obtain ⟨b, _, hp⟩ := payloadSize_some (malformed_payload h)
  refine ⟨_, hp, ?_⟩
  unfold getInfo
  rw [hp]
  cases ha : m.aware
  · simp
  · simp only [if_true]
    rcases cteb_cases v with h1 | ⟨x, c, h1⟩ | ⟨h1, h2⟩
    · rw [findCteb_nil h1]
    · rw [findCteb_has h1]
      by_cases hc : v.primary.custodian = c
      · exact absurd ⟨ha, x, by unfold ValidCteb; rw [hc]; exact h1⟩ hv
      · simp [hc]
    · exact absurd (.inr ⟨ha, h1, h2⟩) h

/-! ### The bundle afterwards -/

theorem onType_other (v : View) (t : UInt8) (f : BlockView → BlockView)
    (hf : ∀ b, (f b).block = b.block) :
    (View.onType v t f).blocks.filter (fun b => b.block.typeCode ≠ t) =
      v.blocks.filter (fun b => b.block.typeCode ≠ t) := by
  unfold View.onType
  simp only
  induction v.blocks with
  | nil => rfl
  | cons b bs ih =>
    rw [List.map_cons, List.filter_cons, List.filter_cons]
    by_cases h : b.block.typeCode = t
    · simp only [h, if_true, hf]
      simpa using ih
    · simp only [h, if_false]
      rw [ih]

theorem onType_byType (v : View) (t : UInt8) (f : BlockView → BlockView)
    (hf : ∀ b, (f b).block = b.block) :
    (View.onType v t f).byType t = (v.byType t).map f := by
  unfold View.onType View.byType
  simp only
  induction v.blocks with
  | nil => rfl
  | cons b bs ih =>
    rw [List.map_cons, List.filter_cons, List.filter_cons]
    by_cases h : b.block.typeCode = t
    · simp only [h, if_true, hf, decide_true, List.map_cons]
      rw [ih]
    · simp only [h, if_false, decide_false, Bool.false_eq_true]
      exact ih

theorem updateFields_isSome (m : Mgr) (v : View) (h : ¬ Malformed m.aware v) (accept : Bool) (id : Nat) :
    ∃ v', updateFields m v accept id = some v' := by
  unfold updateFields
  cases ha : m.aware
  · cases accept <;> simp
  · simp only [if_true]
    have : ∃ c, findCteb v = some c := by
      rcases cteb_cases v with h1 | ⟨x, c, h1⟩ | ⟨h1, h2⟩
      · exact ⟨_, findCteb_nil h1⟩
      · exact ⟨_, findCteb_has h1⟩
      · exact absurd (.inr ⟨ha, h1, h2⟩) h
    obtain ⟨c, hc⟩ := this
    rw [hc]
    cases accept
    · simp
    · cases c <;> simp

theorem process_none_iff (m : Mgr) (v : View) (accept : Bool) (id : Nat) (i : Fin 7) (now : Nat)
    (t : DtnTime) : process m v accept id i now t = none ↔ Malformed m.aware v := by
  unfold process
  by_cases h : Malformed m.aware v
  · rw [(getInfo_none_iff m v).2 h]
    simp [h]
  · obtain ⟨v', hv'⟩ := updateFields_isSome m v h accept id
    cases hg : getInfo m v with
    | none => exact absurd ((getInfo_none_iff m v).1 hg) h
    | some info =>
      simp only [hv', h, reduceCtorEq]

theorem process_valid {m : Mgr} {v : View} {x : Nat} (h : (v.byType 1).length = 1)
    (ha : m.aware = true) (hv : ValidCteb v x) (accept : Bool) (id : Nat) (i : Fin 7) (now : Nat)
    (t : DtnTime) :
    ∃ v', updateFields m v accept id = some v' ∧ process m v accept id i now t =
      some (v', none, aggregate m v.primary.custodian (if accept = true then 0 else i) x) := by
  obtain ⟨n, _, hg⟩ := getInfo_valid h ha hv
  have hmal : ¬ Malformed m.aware v := by
    rintro (h1 | ⟨_, _, h2⟩)
    · exact h1 h
    · exact h2 ⟨_, _, hv⟩
  obtain ⟨v', hv'⟩ := updateFields_isSome m v hmal accept id
  refine ⟨v', hv', ?_⟩
  unfold process
  rw [hg]
  simp only [hv']
  unfold generateCustodySignal
  simp only [ha, if_true]
  cases accept <;> simp

theorem process_invalid {m : Mgr} {v : View} (h : ¬ Malformed m.aware v)
    (hv : ¬ (m.aware = true ∧ ∃ x, ValidCteb v x)) (accept : Bool) (id : Nat) (i : Fin 7) (now : Nat)
    (t : DtnTime) :
    ∃ v' n, updateFields m v accept id = some v' ∧ v.payloadSize = some n ∧
      process m v accept id i now t =
        some (v', some (generateSignal m v.primary n (if accept = true then 0 else i) now t).1,
          (stamp m now).2) := by
  obtain ⟨n, hn, hg⟩ := getInfo_invalid h hv
  obtain ⟨v', hv'⟩ := updateFields_isSome m v h accept id
  refine ⟨v', n, hv', hn, ?_⟩
  unfold process
  rw [hg]
  simp only [hv']
  unfold generateCustodySignal
  cases m.aware <;> cases accept <;> simp [generateSignal]

theorem append_byType (v : View) (b : BlockView) (t : UInt8) :
    (v.append b).byType t = v.byType t ++ if b.block.typeCode = t then [b] else [] := by
  unfold View.append View.byType
  simp only [List.filter_append, List.filter_cons, List.filter_nil]
  by_cases h : b.block.typeCode = t <;> simp [h]

/-- Parsing the text of an endpoint gives it back. -/
theorem parse_me (e : Eid) (h : EidFits e) :
    Uri.parseUri false (Uri.getIpnUriString e.node e.service) = some (e.node, some e.service) :=
  (Uri.C53_round_trip _ _ h.1 h.2).2 false

/-- The bundle after custody was accepted. -/
theorem update_accept {m : Mgr} {v v' : View} {id : Nat} (h : updateFields m v true id = some v') :
    v'.primary = { v.primary with custodian := m.me } ∧ v'.primaryDirty = true ∧
      v'.primaryRaw = v.primaryRaw ∧
      (v'.blocks.filter fun b => b.block.typeCode ≠ 10) = (v.blocks.filter fun b => b.block.typeCode ≠ 10) ∧
      (m.aware = false → v'.blocks = v.blocks) ∧
      (m.aware = true → ∃ b, v'.byType 10 = [b] ∧ b.deleted = false ∧ b.dirty = true ∧
        b.body = .ext (.cteb id (Uri.getIpnUriString m.me.node m.me.service)) ∧
        (b.block = ⟨10, 0, []⟩ ∨ ∃ b' ∈ v.blocks, b.block = b'.block)) := by
  unfold updateFields at h
  cases ha : m.aware
  · rw [ha] at h
    simp only [Bool.false_eq_true, if_false, Bool.true_eq_false, Option.some.injEq] at h
    subst h
    exact ⟨rfl, rfl, rfl, rfl, fun _ => rfl, fun h => by simp at h⟩
  · rw [ha] at h
    simp only [if_true] at h
    rcases cteb_cases v with h1 | ⟨x, c, h1⟩ | ⟨h1, h2⟩
    · rw [findCteb_nil h1] at h
      simp only [Bool.true_eq_false, if_false, Option.some.injEq] at h
      subst h
      refine ⟨rfl, rfl, rfl, ?_, fun h => by simp at h, fun _ =>
        ⟨newBlock 10 0 [] (.ext (.cteb id (Uri.getIpnUriString m.me.node m.me.service))), ?_, rfl, rfl, rfl,
          .inl rfl⟩⟩
      · simp [View.append, View.setCustodian, newBlock]
      · rw [append_byType]
        have : (View.setCustodian v m.me).byType 10 = [] := h1
        rw [this]
        simp [newBlock]
    · rw [findCteb_has h1] at h
      obtain ⟨b, e, hb, hbody, _⟩ := h1
      have hbm : b ∈ v.blocks := by
        have : b ∈ v.byType 10 := by rw [hb]; simp
        exact (List.mem_filter.1 this).1
      by_cases hc : v.primary.custodian = c
      · simp only [hc, decide_true, Bool.true_eq_false, if_false, Option.some.injEq] at h
        subst h
        refine ⟨rfl, rfl, rfl, onType_other _ _ _ (by intro b; rfl), fun h => by simp at h, fun _ => ?_⟩
        rw [onType_byType _ _ _ (by intro b; rfl)]
        have : (View.setCustodian v m.me).byType 10 = [b] := hb
        rw [this]
        exact ⟨_, rfl, rfl, rfl, rfl, .inr ⟨b, hbm, rfl⟩⟩
      · simp only [hc, decide_false, Bool.true_eq_false, if_false, Option.some.injEq] at h
        subst h
        refine ⟨rfl, rfl, rfl, ?_, fun h => by simp at h, fun _ => ?_⟩
        · rw [onType_other _ _ _ (by intro b; rfl)]
          exact onType_other v _ _ (by intro b; rfl)
        rw [onType_byType _ _ _ (by intro b; rfl)]
        have : (View.setCustodian (View.onType v 10 fun b => { b with deleted := true }) m.me).byType 10 =
            [{ b with deleted := true }] := by
          have := onType_byType v 10 (fun b => { b with deleted := true }) (by intro b; rfl)
          rw [hb] at this
          exact this
        rw [this]
        exact ⟨_, rfl, rfl, rfl, rfl, .inr ⟨b, hbm, rfl⟩⟩
    · rw [findCteb_none h1 h2] at h
      simp at h

/-- The bundle after custody was refused. -/
theorem update_refuse {m : Mgr} {v v' : View} {id : Nat} (h : updateFields m v false id = some v') :
    v'.primary = v.primary ∧ v'.primaryDirty = v.primaryDirty ∧ v'.primaryRaw = v.primaryRaw ∧
      (v'.blocks.filter fun b => b.block.typeCode ≠ 10) = (v.blocks.filter fun b => b.block.typeCode ≠ 10) ∧
      ((m.aware = false ∨ v.byType 10 = [] ∨ ∃ x, ValidCteb v x) → v' = v) ∧
      (m.aware = true → (∃ x c, HasCteb v x c ∧ v.primary.custodian ≠ c) →
        ∀ b ∈ v'.byType 10, b.deleted = true) := by
  unfold updateFields at h
  cases ha : m.aware
  · rw [ha] at h
    simp only [Bool.false_eq_true, if_false, if_true, Option.some.injEq] at h
    subst h
    exact ⟨rfl, rfl, rfl, rfl, fun _ => rfl, fun h => by simp at h⟩
  · rw [ha] at h
    simp only [if_true] at h
    rcases cteb_cases v with h1 | ⟨x, c, h1⟩ | ⟨h1, h2⟩
    · rw [findCteb_nil h1] at h
      simp only [if_true, Option.some.injEq] at h
      subst h
      refine ⟨rfl, rfl, rfl, rfl, fun _ => rfl, ?_⟩
      rintro _ ⟨x, c, ⟨b, e, hb, _⟩, _⟩
      rw [h1] at hb
      simp at hb
    · rw [findCteb_has h1] at h
      by_cases hc : v.primary.custodian = c
      · simp only [hc, decide_true, if_true, Option.some.injEq] at h
        subst h
        refine ⟨rfl, rfl, rfl, rfl, fun _ => rfl, ?_⟩
        rintro _ ⟨x', c', h', hc'⟩
        exact absurd (hc.trans (hasCteb_unique h1 h').2) hc'
      · simp only [hc, decide_false, if_true, Option.some.injEq] at h
        subst h
        refine ⟨rfl, rfl, rfl, onType_other _ _ _ (by intro b; rfl), ?_, ?_⟩
        · rintro (h | h | ⟨x', h⟩)
          · simp at h
          · obtain ⟨b, e, hb, _⟩ := h1
            rw [h] at hb
            simp at hb
          · exact absurd (hasCteb_unique h h1).2 hc
        · intro _ _ b hb
          rw [onType_byType _ _ _ (by intro b; rfl)] at hb
          obtain ⟨b', _, rfl⟩ := List.mem_map.1 hb
          rfl
    · rw [findCteb_none h1 h2] at h
      simp at h

/-! ### The next hop -/

theorem split_lt {buf rest : Bytes} {vs : List Nat} (h : Sdnv.Spec.Split buf vs rest) :
    ∀ x ∈ vs, x < 2 ^ 64 := by
  induction h with
  | nil => simp
  | @cons p v buf vs rest hp _ ih =>
    intro x hx
    rcases List.mem_cons.1 hx with rfl | hx
    · exact hp.2.2.2
    · exact ih x hx

theorem inRange_of_isPrimary {b : Bytes} {p : Primary} (h : Bpv6Primary.Spec.IsPrimary b p) (e : Eid)
    (he : EidFits e) : Bpv6Primary.Spec.InRange { p with custodian := e } := by
  obtain ⟨⟨body, _, hs⟩, _⟩ := h
  have hl := split_lt hs
  refine ⟨hl _ (by simp), ?_⟩
  intro x hx
  have hm : x = e.node ∨ x = e.service ∨ x ∈ Bpv6Primary.Spec.tailFields p := by
    unfold Bpv6Primary.Spec.tailFields at hx ⊢
    have hf : Bpv6Primary.Spec.IsFragment { p with custodian := e } = Bpv6Primary.Spec.IsFragment p := rfl
    rw [List.mem_append] at hx ⊢
    rcases hx with hx | hx
    · simp only [List.mem_cons, List.not_mem_nil, or_false] at hx ⊢
      rcases hx with h | h | h | h | h | h | h | h | h | h | h | h <;> simp [h]
    · exact .inr (.inr (.inr hx))
  rcases hm with rfl | rfl | hm
  · exact he.1
  · exact he.2
  · exact hl x (by simp [hm])

theorem forall2_filter {α β : Type} {R : α → β → Prop} {P : α → Bool} {Q : β → Bool}
    (hPQ : ∀ a b, R a b → P a = Q b) {xs : List α} {ys : List β} (h : List.Forall₂ R xs ys) :
    List.Forall₂ R (xs.filter P) (ys.filter Q) := by
  induction h with
  | nil => exact .nil
  | @cons a b xs ys hab _ ih =>
    rw [List.filter_cons, List.filter_cons, hPQ a b hab]
    split
    · exact .cons hab ih
    · exact ih

theorem same_byType {v : View} {w : View} (t : UInt8)
    (h : List.Forall₂ SameBlock (v.blocks.filter fun b => !b.deleted) w.blocks) :
    List.Forall₂ SameBlock ((v.byType t).filter fun b => !b.deleted) (w.byType t) := by
  have := forall2_filter (P := fun b : BlockView => decide (b.block.typeCode = t))
    (Q := fun b : BlockView => decide (b.block.typeCode = t)) (fun a b hab => by rw [hab.1]) h
  unfold View.byType
  rw [List.filter_filter] at this ⊢
  have hc : (fun a : BlockView => !a.deleted && decide (a.block.typeCode = t)) =
      fun a => decide (a.block.typeCode = t) && !a.deleted := by
    funext a; exact Bool.and_comm _ _
  rw [hc]
  exact this

theorem next_hop {m : Mgr} (hme : EidFits m.me) {buf : Bytes} {v v' : View} (hl : load buf = some v)
    (ho : ∀ b ∈ v.blocks, OneByteFlags b.raw b.block) {id : Nat} (hid : id < 2 ^ 64)
    (h : updateFields m v true id = some v')
    (hser : (Bpv6Primary.serialize { v.primary with custodian := m.me }).1.isSome = true)
    (hpay : (v.byType 1).length = 1) :
    ∃ out w, v'.render = some (out, w) ∧ load out = some w ∧
      w.primary = { v.primary with custodian := m.me, blockLength := w.primary.blockLength } ∧
      (m.aware = true → ValidCteb w id) ∧
      (w.byType 1).map (fun b => (b.body, b.block.data)) =
        (v.byType 1).map (fun b => (b.body, b.block.data)) := by
  obtain ⟨h1, h2, h3, h4, h5⟩ := (C56_load_iff _ _).1 hl
  obtain ⟨u1, u2, _, u4, u5, u6⟩ := update_accept h
  obtain ⟨_, hl45⟩ := uri_length m.me hme
  have hmem : ∀ b ∈ v'.blocks, b.block.typeCode ≠ 10 → b ∈ v.blocks := by
    intro b hb hne
    have : b ∈ v'.blocks.filter fun b => b.block.typeCode ≠ 10 := List.mem_filter.2 ⟨hb, by simp [hne]⟩
    rw [u4] at this
    exact (List.mem_filter.1 this).1
  have hpay' : v'.byType 1 = v.byType 1 := by
    have e : ∀ u : View, u.byType 1 =
        (u.blocks.filter fun b => b.block.typeCode ≠ 10).filter fun b => b.block.typeCode = 1 := by
      intro u
      unfold View.byType
      rw [List.filter_filter]
      apply List.filter_congr
      intro b _
      by_cases hb : b.block.typeCode = 1 <;> simp [hb]
    rw [e, e, u4]
  have hold : ∀ b ∈ v.blocks, Ready (v'.primary.flags.testBit 1) b := by
    intro b hb
    obtain ⟨a1, a2, a3, a4⟩ := h4 b hb
    have hf : v'.primary.flags = v.primary.flags := by rw [u1]
    unfold Ready
    rw [a3, hf]
    exact ⟨a1, a2, .inl (ho b hb)⟩
  have hready : ∀ b ∈ v'.blocks, b.deleted = false → Ready (v'.primary.flags.testBit 1) b := by
    intro b hb _
    by_cases hne : b.block.typeCode = 10
    · cases ha : m.aware
      · rw [u5 ha] at hb
        exact hold b hb
      · obtain ⟨c, c1, c2, c3, c4, c5⟩ := u6 ha
        have hbc : b = c := by
          have : b ∈ v'.byType 10 := List.mem_filter.2 ⟨hb, by simp [hne]⟩
          rw [c1] at this
          simpa using this
        subst hbc
        unfold Ready
        rw [if_pos c3, c4]
        refine ⟨?_, hne.symm, hid, ?_⟩
        · rcases c5 with c5 | ⟨b', hb', c5⟩
          · rw [c5]; simp
          · rw [c5]
            have := (ho b' hb').1
            omega
        · intro d hd _
          refine ⟨?_, hl45⟩
          have he := Bpv6Primary.encode_len id hid
          simp only [Bpv6Canonical.Ext.size, numBytesRequired_eq id hid, Option.bind_eq_bind, Option.bind_some,
            Option.pure_def, Option.some.injEq] at hd
          omega
    · exact hold b (hmem b hb hne)
  have hprim : PrimaryReady v' := by
    unfold PrimaryReady
    rw [if_pos u2, u1]
    exact ⟨inRange_of_isPrimary h2 m.me hme, hser, h2.2⟩
  obtain ⟨pb, hpb, _⟩ := payloadSize_some hpay
  have hpbm : pb ∈ v'.byType 1 := by rw [hpay', hpb]; simp
  have hpbv : pb ∈ v.byType 1 := by rw [hpb]; simp
  have hpbd := h4 pb (List.mem_filter.1 hpbv).1
  obtain ⟨out, w, r1, r2, r3, r4, r5⟩ := C56_render_reload v' hprim
    ⟨pb, (List.mem_filter.1 hpbm).1, hpbd.2.2.2⟩ hready
  refine ⟨out, w, r1, r3, by rw [r4, u1], ?_, ?_⟩
  · intro ha
    obtain ⟨c, c1, c2, c3, c4, c5⟩ := u6 ha
    have hs := same_byType 10 r5
    rw [c1] at hs
    simp only [List.filter_cons, c2, Bool.not_false, if_true, List.filter_nil] at hs
    have hcust : w.primary.custodian = m.me := by rw [r4, u1]
    match hw : w.byType 10, hs with
    | [c'], .cons hh .nil =>
      refine ⟨c', _, hw, by rw [hh.2.1, c4], ?_⟩
      rw [hcust]
      exact parse_me m.me hme
  · have hs := same_byType 1 r5
    rw [hpay', hpb] at hs
    simp only [List.filter_cons, hpbd.2.2.2, Bool.not_false, if_true, List.filter_nil] at hs
    rw [hpb]
    match hw : w.byType 1, hs with
    | [c'], .cons hh .nil =>
      simp only [List.map_cons, List.map_nil]
      rw [hh.2.1, hh.2.2.2.2.1 (.inl hpbd.2.2.1)]

end Hdtn.CustodyManager
