import Verif.Node.Spec
import Mathlib.Data.List.Perm.Basic
import Verif.Node.StorageSend

/-!
The account of bundles and reservations in the whole node, and the steps of storage and egress that keep it.
-/

namespace Hdtn.Node

/-- The message is the answer to `h`. -/
def EgressToIngress.answers (h : ToEgress) : EgressToIngress → Bool
  | .ack a => a.hdr == h
  | _ => false

/-- A reservation of ingress is all right. -/
structure SetOk (mb my : Nat) (next : Nat) (s : AckSet) : Prop where
  eKeys : s.egress.Keys
  sKeys : s.storage.Keys
  eBytes : s.egressBytes = s.egress.bytes
  sBytes : s.storageBytes = s.storage.bytes
  eLimit : s.egress.length ≤ mb / 2 ∧ s.egressBytes ≤ my / 2
  sLimit : s.storage.length ≤ mb / 2 ∧ s.storageBytes ≤ my / 2
  eIds : ∀ x ∈ s.egress, x.1 < next
  sIds : ∀ x ∈ s.storage, x.1 < next

/-- What holds of ingress alone. -/
structure IngOk (C : Config) (g : Ingress) : Prop where
  sets : ∀ i, SetOk (C.maxBundles i) (C.maxBytes i) g.nextId (g.sets i)
  single : SetOk 10 (C.maxBundleSize * 2) g.nextId g.single
  out : ∀ i, C.outducts ≤ i → (g.sets i).egress = [] ∧ (g.sets i).storage = []
  plain : ∀ i x, x ∈ (g.sets i).egress ∨ x ∈ (g.sets i).storage → x.2.custody = false
  tnd : (g.threads.map (·.id)).Nodup
  tids : ∀ t ∈ g.threads, t.id < g.nextId
  tsep : ∀ t ∈ g.threads, ∀ i, t.place = .egress i → ∀ b, (t.id, b) ∉ g.single.storage
  routes : RoutesOk C g.routes

/-- The account. -/
structure Inv (C : Config) (s : State) : Prop where
  i1 : ∀ i x, (s.ingress.sets i).egress.count x = s.ingress.threads.count ⟨x.2, x.1, .egress i⟩ + s.ie.count (hdr i x false)
    + s.flights.countP (fun f => f.hdr == hdr i x false && !f.fromStorage) + s.ei.countP (·.answers (hdr i x false))
  i2 : ∀ i x, (s.ingress.sets i).storage.count x = s.ingress.threads.count ⟨x.2, x.1, .cut i⟩ + s.is.count (toS (some i) x)
    + (s.storage.infos i).queue.count (toS (some i) x) + (s.storage.infos i).cut.count x + s.si.countP (ackOf (some i) x)
    + s.stuck.count (i, x.1, x.2)
  i3 : ∀ x, s.ingress.single.storage.count x = s.ingress.threads.count ⟨x.2, x.1, .store⟩ + s.is.count (toS none x)
    + s.si.countP (ackOf none x)
  i4 : ∀ i x, (s.storage.infos i).cut.count x = s.se.count (hdr i x true)
    + s.flights.countP (fun f => f.hdr == hdr i x true && f.fromStorage) + s.es.countP (·.answers (hdr i x true))
  i5 : ∀ i x, (s.storage.infos i).opened.count x = s.se.count (hdr i x false)
    + s.flights.countP (fun f => f.hdr == hdr i x false && f.fromStorage) + s.es.countP (·.answers (hdr i x false))
  i6 : ∀ x, s.storage.disk.countP (givenAs x) = s.se.countP (diskMsg x)
    + s.flights.countP (fun f => diskMsg x f.hdr && f.fromStorage) + s.es.countP (·.answersDisk x)
  i7 : ∀ b, s.accepted.count b + s.es.countP (·.finishes b) = s.lost.count b + s.expired.count b
    + (if b.custody then s.released.count b else s.delivered.count b) + s.ingress.threads.countP (·.bundle == b)
    + s.ie.countP (·.bundle == b) + s.is.countP (·.bundle == b) + queued C s.storage b
    + s.se.countP (fun m => m.cut && m.bundle == b)
    + s.flights.countP (fun f => f.hdr.bundle == b && (!f.fromStorage || f.hdr.cut)) + s.es.countP (·.carries b)
    + s.storage.disk.countP (·.bundle == b)
  st : StOk C s.storage
  ing : IngOk C s.ingress
  routes : RoutesOk C s.routes
  eiRoutes : ∀ r, .capabilities r ∈ s.ei → RoutesOk C r
  ieCut : ∀ m ∈ s.ie, m.cut = false
  eiCut : ∀ a, .ack a ∈ s.ei → a.hdr.cut = false
  flCut : ∀ f ∈ s.flights, f.fromStorage = false → f.hdr.cut = false
  isOk : ∀ m ∈ s.is, m.dontStore = m.outduct.isSome
  ready : s.storage.ready = true ∨ ∃ r es, s.es = .capabilities r :: es
  failed : ∀ i b, .failed i b ∈ s.es → i < C.outducts

theorem esa_ack (h : ToEgress) (a : EgressAck) : EgressToStorage.answers h (.ack a) = (a.hdr == h) := rfl
theorem esa_failed (h : ToEgress) (i : Nat) (b : Bundle) : EgressToStorage.answers h (.failed i b) = false := rfl
theorem esd_ack (x : Nat × Bundle) (a : EgressAck) :
    EgressToStorage.answersDisk x (.ack a) = (a.hdr.id == x.1 && a.hdr.bundle == x.2 && !a.hdr.cut) := rfl
theorem esd_failed (x : Nat × Bundle) (i : Nat) (b : Bundle) : EgressToStorage.answersDisk x (.failed i b) = false := rfl
theorem esc_ack (b : Bundle) (a : EgressAck) :
    EgressToStorage.carries b (.ack a) = (a.hdr.cut && a.error != .noErrors && a.hdr.bundle == b) := rfl
theorem esc_failed (b : Bundle) (i : Nat) (b' : Bundle) : EgressToStorage.carries b (.failed i b') = (b' == b) := rfl
theorem esf_ack (b : Bundle) (a : EgressAck) :
    EgressToStorage.finishes b (.ack a) = (!a.hdr.cut && a.error == .noErrors && a.hdr.bundle == b && !b.custody) := rfl
theorem esf_failed (b : Bundle) (i : Nat) (b' : Bundle) : EgressToStorage.finishes b (.failed i b') = false := rfl
theorem eia_ack (h : ToEgress) (a : EgressAck) : EgressToIngress.answers h (.ack a) = (a.hdr == h) := rfl

theorem countP_pos_of_mem {α : Type} {l : List α} {p : α → Bool} {a : α} (h : a ∈ l) (hp : p a = true) : 0 < l.countP p :=
  List.countP_pos_iff.2 ⟨a, h, hp⟩

theorem hdr_cut {h : ToEgress} {c : Bool} (hc : h.cut = c) : hdr h.outduct (h.id, h.bundle) c = h := by
  subst hc; rfl

theorem countP_one {α : Type} (a : α) (p : α → Bool) : [a].countP p = (p a).toNat := by
  cases h : p a <;> simp [h]

theorem count_one {α : Type} [BEq α] (a b : α) : [a].count b = (a == b).toNat := by
  cases h : a == b <;> simp [List.count_cons, h]

theorem eraseIdx_countP {α : Type} {l : List α} {k : Nat} {a : α} (h : l[k]? = some a) (p : α → Bool) :
    (l.eraseIdx k).countP p + [a].countP p = l.countP p := by
  obtain ⟨hk, rfl⟩ := List.getElem?_eq_some_iff.1 h
  rw [← (List.getElem_cons_eraseIdx_perm hk).countP_eq p, List.countP_cons, List.countP_cons, List.countP_nil]
  omega

theorem eraseIdx_count {α : Type} [BEq α] [LawfulBEq α] {l : List α} {k : Nat} {a : α} (h : l[k]? = some a) (x : α) :
    (l.eraseIdx k).count x + [a].count x = l.count x := eraseIdx_countP h (· == x)

theorem inv_after {C s is' es' st' e cI cE} (h : Inv C s) (hI : s.is = cI ++ is') (hE : s.es = cE ++ es')
    (l : Local C s.storage st' e cI cE) (ok : StOk C st') (hr : st'.ready = true ∨ ∃ r es, es' = .capabilities r :: es) :
    Inv C (State.after { s with is := is', es := es' } st' e) where
  i1 i x := h.i1 i x
  i2 i x := by
    have a := h.i2 i x
    have b := l.l2 i x
    rw [hI, List.count_append] at a
    simp only [State.after, List.countP_append, List.count_append]
    omega
  i3 x := by
    have a := h.i3 x
    have b := l.l3 x
    rw [hI, List.count_append] at a
    simp only [State.after, List.countP_append]
    omega
  i4 i x := by
    have a := h.i4 i x
    have b := l.l4 i x
    rw [hE, List.countP_append] at a
    simp only [State.after, List.count_append]
    omega
  i5 i x := by
    have a := h.i5 i x
    have b := l.l5 i x
    rw [hE, List.countP_append] at a
    simp only [State.after, List.count_append]
    omega
  i6 x := by
    have a := h.i6 x
    have b := l.l6 x
    rw [hE, List.countP_append] at a
    simp only [State.after, List.countP_append]
    omega
  i7 b := by
    have a := h.i7 b
    have c := l.l7 b
    rw [hE, hI] at a
    simp only [State.after, List.countP_append, List.count_append] at a ⊢
    omega
  st := ok
  ing := h.ing
  routes := h.routes
  eiRoutes := h.eiRoutes
  ieCut := h.ieCut
  eiCut := h.eiCut
  flCut := h.flCut
  isOk := fun m hm => h.isOk m (by rw [hI]; exact List.mem_append_right _ hm)
  ready := hr
  failed := fun i b hb => h.failed i b (by rw [hE]; exact List.mem_append_right _ hb)

/-! ### Egress -/

/-- Egress gives a bundle from ingress to an outduct. -/
theorem inv_fly_ingress {C s m rest} (h : Inv C s) (hie : s.ie = m :: rest) (o : Nat) :
    Inv C { s with ie := rest, flights := s.flights ++ [⟨m, false, o⟩] } := by
  have hc : m.cut = false := h.ieCut m (by rw [hie]; exact List.mem_cons_self)
  constructor
  · intro i x
    have a := h.i1 i x
    rw [hie, List.count_cons] at a
    simp only [List.countP_append, List.countP_cons, List.countP_nil, Bool.not_false, Bool.and_true]
    omega
  · exact h.i2
  · exact h.i3
  · intro i x; have := h.i4 i x; simpa [List.countP_append] using this
  · intro i x; have := h.i5 i x; simpa [List.countP_append] using this
  · intro x; have := h.i6 x; simpa [List.countP_append] using this
  · intro b
    have a := h.i7 b
    rw [hie, List.countP_cons] at a
    simp only [List.countP_append, List.countP_cons, List.countP_nil, Bool.not_false, Bool.true_or, Bool.and_true]
    omega
  · exact h.st
  · exact h.ing
  · exact h.routes
  · exact h.eiRoutes
  · intro m' hm'; exact h.ieCut m' (by rw [hie]; exact List.mem_cons_of_mem _ hm')
  · exact h.eiCut
  · intro f hf
    rcases List.mem_append.1 hf with hf | hf
    · exact h.flCut f hf
    · rw [List.mem_singleton] at hf; subst hf; exact fun _ => hc
  · exact h.isOk
  · exact h.ready
  · exact h.failed

/-- Egress gives a bundle from storage to an outduct. -/
theorem inv_fly_storage {C s m rest} (h : Inv C s) (hse : s.se = m :: rest) (o : Nat) :
    Inv C { s with se := rest, flights := s.flights ++ [⟨m, true, o⟩] } := by
  constructor
  · intro i x; have := h.i1 i x; simpa [List.countP_append] using this
  · exact h.i2
  · exact h.i3
  · intro i x
    have a := h.i4 i x
    rw [hse, List.count_cons] at a
    simp only [List.countP_append, List.countP_cons, List.countP_nil, Bool.and_true]
    omega
  · intro i x
    have a := h.i5 i x
    rw [hse, List.count_cons] at a
    simp only [List.countP_append, List.countP_cons, List.countP_nil, Bool.and_true]
    omega
  · intro x
    have a := h.i6 x
    rw [hse, List.countP_cons] at a
    simp only [List.countP_append, List.countP_cons, List.countP_nil, Bool.and_true]
    omega
  · intro b
    have a := h.i7 b
    rw [hse, List.countP_cons] at a
    simp only [List.countP_append, List.countP_cons, List.countP_nil, Bool.not_true, Bool.false_or] at a ⊢
    have e : (if (m.bundle == b && m.cut) = true then 1 else 0) = if (m.cut && m.bundle == b) = true then 1 else 0 := by
      rw [Bool.and_comm]
    omega
  · exact h.st
  · exact h.ing
  · exact h.routes
  · exact h.eiRoutes
  · exact h.ieCut
  · exact h.eiCut
  · intro f hf
    rcases List.mem_append.1 hf with hf | hf
    · exact h.flCut f hf
    · rw [List.mem_singleton] at hf; subst hf; exact fun h => by simp at h
  · exact h.isOk
  · exact h.ready
  · exact h.failed

/-- The flight's reservation is in ingress. -/
theorem flight_set {C s} {f : Flight} (h : Inv C s) (hf : f ∈ s.flights) (hs : f.fromStorage = false) :
    (f.hdr.id, f.hdr.bundle) ∈ (s.ingress.sets f.hdr.outduct).egress := by
  have a := h.i1 f.hdr.outduct (f.hdr.id, f.hdr.bundle)
  have hc := h.flCut f hf hs
  have : 0 < s.flights.countP (fun g => g.hdr == hdr f.hdr.outduct (f.hdr.id, f.hdr.bundle) false && !g.fromStorage) := by
    refine countP_pos_of_mem hf ?_
    rw [hdr_cut hc, hs]
    simp
  exact List.count_pos_iff.1 (by omega)

/-- The flight's entry is in storage. -/
theorem flight_cut {C s} {f : Flight} (h : Inv C s) (hf : f ∈ s.flights) (hs : f.fromStorage = true) (hc : f.hdr.cut = true) :
    (f.hdr.id, f.hdr.bundle) ∈ (s.storage.infos f.hdr.outduct).cut := by
  have a := h.i4 f.hdr.outduct (f.hdr.id, f.hdr.bundle)
  have : 0 < s.flights.countP (fun g => g.hdr == hdr f.hdr.outduct (f.hdr.id, f.hdr.bundle) true && g.fromStorage) := by
    refine countP_pos_of_mem hf ?_
    rw [hdr_cut hc, hs]
    simp
  exact List.count_pos_iff.1 (by omega)

/-- What is cut through has no custody. -/
theorem cut_plain {C s} (h : Inv C s) {i : Nat} {x : Nat × Bundle} (hx : x ∈ (s.storage.infos i).cut) : x.2.custody = false := by
  have a := h.i2 i x
  have := List.count_pos_iff.2 hx
  have hm : x ∈ (s.ingress.sets i).storage := List.count_pos_iff.1 (by omega)
  exact h.ing.plain i x (Or.inr hm)

theorem set_range {C s} (h : Inv C s) {i : Nat} {x : Nat × Bundle}
    (hx : x ∈ (s.ingress.sets i).egress ∨ x ∈ (s.ingress.sets i).storage) : i < C.outducts := by
  by_contra hn
  obtain ⟨h1, h2⟩ := h.ing.out i (by omega)
  rw [h1, h2] at hx
  simp at hx

theorem ready_append {s : State} {C : Config} (h : Inv C s) (l : List EgressToStorage) :
    s.storage.ready = true ∨ ∃ r es, s.es ++ l = .capabilities r :: es := by
  rcases h.ready with h | ⟨r, es, h⟩
  · exact Or.inl h
  · exact Or.inr ⟨r, es ++ l, by rw [h]; rfl⟩

/-- An outduct did not send a bundle. -/
theorem inv_unsent {C s k} {f : Flight} (h : Inv C s) (hk : s.flights[k]? = some f) {err : AckError} (he : err ≠ .noErrors) :
    Inv C ({ s with flights := s.flights.eraseIdx k }.onFailed f.hdr f.fromStorage err) := by
  have hf : f ∈ s.flights := List.mem_of_getElem? hk
  have hcount := fun p => eraseIdx_countP hk p
  have hsub : ∀ g, g ∈ s.flights.eraseIdx k → g ∈ s.flights := fun g hg => List.mem_of_mem_eraseIdx hg
  have he' : (err == AckError.noErrors) = false := by cases err <;> first | rfl | exact absurd rfl he
  unfold State.onFailed
  cases hs : f.fromStorage with
  | true =>
    simp only [if_true]
    constructor
    · intro i x
      have a := h.i1 i x
      have c := hcount (fun f => f.hdr == hdr i x false && !f.fromStorage)
      simp only [countP_one, hs, Bool.not_true, Bool.and_false, Bool.toNat_false] at c
      dsimp only
      omega
    · exact h.i2
    · exact h.i3
    · intro i x
      have a := h.i4 i x
      have c := hcount (fun f => f.hdr == hdr i x true && f.fromStorage)
      simp only [countP_one, hs, Bool.and_true] at c
      simp only [List.countP_append, countP_one, esa_ack]
      omega
    · intro i x
      have a := h.i5 i x
      have c := hcount (fun f => f.hdr == hdr i x false && f.fromStorage)
      simp only [countP_one, hs, Bool.and_true] at c
      simp only [List.countP_append, countP_one, esa_ack]
      omega
    · intro x
      have a := h.i6 x
      have c := hcount (fun f => diskMsg x f.hdr && f.fromStorage)
      simp only [countP_one, hs, Bool.and_true] at c
      simp only [List.countP_append, countP_one, esd_ack]
      simp only [diskMsg] at a c ⊢
      omega
    · intro b
      have a := h.i7 b
      have c := hcount (fun f => f.hdr.bundle == b && (!f.fromStorage || f.hdr.cut))
      simp only [countP_one, hs, Bool.not_true, Bool.false_or] at c
      simp only [List.countP_append, countP_one, esf_ack, esc_ack, he',
        bne, Bool.not_false, Bool.and_true, Bool.and_false, Bool.false_and, Bool.toNat_false]
      have e : (f.hdr.bundle == b && f.hdr.cut).toNat = (f.hdr.cut && f.hdr.bundle == b).toNat := by
        rw [Bool.and_comm]
      omega
    · exact h.st
    · exact h.ing
    · exact h.routes
    · exact h.eiRoutes
    · exact h.ieCut
    · exact h.eiCut
    · exact fun g hg => h.flCut g (hsub g hg)
    · exact h.isOk
    · exact ready_append h _
    · intro i b hb
      rcases List.mem_append.1 hb with hb | hb
      · exact h.failed i b hb
      · simp at hb
  | false =>
    have hc := h.flCut f hf hs
    simp only [Bool.false_eq_true, if_false]
    constructor
    · intro i x
      have a := h.i1 i x
      have c := hcount (fun f => f.hdr == hdr i x false && !f.fromStorage)
      simp only [countP_one, hs, Bool.not_false, Bool.and_true] at c
      simp only [List.countP_append, countP_one, eia_ack]
      omega
    · exact h.i2
    · exact h.i3
    · intro i x
      have a := h.i4 i x
      have c := hcount (fun f => f.hdr == hdr i x true && f.fromStorage)
      simp only [countP_one, hs, Bool.and_false, Bool.toNat_false] at c
      simp only [List.countP_append, countP_one, esa_failed, Bool.toNat_false]
      omega
    · intro i x
      have a := h.i5 i x
      have c := hcount (fun f => f.hdr == hdr i x false && f.fromStorage)
      simp only [countP_one, hs, Bool.and_false, Bool.toNat_false] at c
      simp only [List.countP_append, countP_one, esa_failed, Bool.toNat_false]
      omega
    · intro x
      have a := h.i6 x
      have c := hcount (fun f => diskMsg x f.hdr && f.fromStorage)
      simp only [countP_one, hs, Bool.and_false, Bool.toNat_false] at c
      simp only [List.countP_append, countP_one, esd_failed, Bool.toNat_false]
      omega
    · intro b
      have a := h.i7 b
      have c := hcount (fun f => f.hdr.bundle == b && (!f.fromStorage || f.hdr.cut))
      simp only [countP_one, hs, Bool.not_false, Bool.true_or, Bool.and_true] at c
      simp only [List.countP_append, countP_one, esf_failed, esc_failed,
        Bool.toNat_false]
      omega
    · exact h.st
    · exact h.ing
    · exact h.routes
    · intro r hr
      rcases List.mem_append.1 hr with hr | hr
      · exact h.eiRoutes r hr
      · simp at hr
    · exact h.ieCut
    · intro a ha
      rcases List.mem_append.1 ha with ha | ha
      · exact h.eiCut a ha
      · simp only [List.mem_singleton, EgressToIngress.ack.injEq] at ha
        subst ha
        exact hc
    · exact fun g hg => h.flCut g (hsub g hg)
    · exact h.isOk
    · exact ready_append h _
    · intro i b hb
      rcases List.mem_append.1 hb with hb | hb
      · exact h.failed i b hb
      · simp only [List.mem_singleton, EgressToStorage.failed.injEq] at hb
        rw [hb.1]
        have := set_range h (Or.inl (flight_set h hf hs))
        omega

/-- An outduct sent a bundle. -/
theorem inv_sent {C s k} {f : Flight} (h : Inv C s) (hk : s.flights[k]? = some f) :
    Inv C ({ s with flights := s.flights.eraseIdx k }.onSuccess f.hdr f.fromStorage) := by
  have hf : f ∈ s.flights := List.mem_of_getElem? hk
  have hcount := fun p => eraseIdx_countP hk p
  have hsub : ∀ g, g ∈ s.flights.eraseIdx k → g ∈ s.flights := fun g hg => List.mem_of_mem_eraseIdx hg
  unfold State.onSuccess
  cases hs : f.fromStorage with
  | true =>
    simp only [if_true]
    constructor
    · intro i x
      have a := h.i1 i x
      have c := hcount (fun f => f.hdr == hdr i x false && !f.fromStorage)
      simp only [countP_one, hs, Bool.not_true, Bool.and_false, Bool.toNat_false] at c
      dsimp only
      omega
    · exact h.i2
    · exact h.i3
    · intro i x
      have a := h.i4 i x
      have c := hcount (fun f => f.hdr == hdr i x true && f.fromStorage)
      simp only [countP_one, hs, Bool.and_true] at c
      simp only [List.countP_append, countP_one, esa_ack]
      omega
    · intro i x
      have a := h.i5 i x
      have c := hcount (fun f => f.hdr == hdr i x false && f.fromStorage)
      simp only [countP_one, hs, Bool.and_true] at c
      simp only [List.countP_append, countP_one, esa_ack]
      omega
    · intro x
      have a := h.i6 x
      have c := hcount (fun f => diskMsg x f.hdr && f.fromStorage)
      simp only [countP_one, hs, Bool.and_true] at c
      simp only [List.countP_append, countP_one, esd_ack]
      simp only [diskMsg] at a c ⊢
      omega
    · intro b
      have a := h.i7 b
      have c := hcount (fun f => f.hdr.bundle == b && (!f.fromStorage || f.hdr.cut))
      simp only [countP_one, hs, Bool.not_true, Bool.false_or] at c
      simp only [List.countP_append, countP_one, esf_ack, esc_ack,
        List.count_append, count_one]
      cases hcut : f.hdr.cut with
      | true =>
        have hp := cut_plain h (flight_cut h hf hs hcut)
        simp only at hp
        rw [hcut] at c
        by_cases hb : f.hdr.bundle = b
        · have hbc : b.custody = false := by rw [← hb]; exact hp
          simp [hb, hbc] at a c ⊢
          omega
        · have hb' : (f.hdr.bundle == b) = false := by simpa using hb
          cases hcus : b.custody <;> simp [hb', hcus] at a c ⊢ <;> omega
      | false =>
        rw [hcut] at c
        by_cases hb : f.hdr.bundle = b
        · cases hcus : b.custody <;> simp [hb, hcus] at a c ⊢ <;> omega
        · have hb' : (f.hdr.bundle == b) = false := by simpa using hb
          cases hcus : b.custody <;> simp [hb', hcus] at a c ⊢ <;> omega
    · exact h.st
    · exact h.ing
    · exact h.routes
    · exact h.eiRoutes
    · exact h.ieCut
    · exact h.eiCut
    · exact fun g hg => h.flCut g (hsub g hg)
    · exact h.isOk
    · exact ready_append h _
    · intro i b hb
      rcases List.mem_append.1 hb with hb | hb
      · exact h.failed i b hb
      · simp at hb
  | false =>
    have hc := h.flCut f hf hs
    have hp := h.ing.plain _ _ (Or.inl (flight_set h hf hs))
    simp only at hp
    simp only [Bool.false_eq_true, if_false]
    constructor
    · intro i x
      have a := h.i1 i x
      have c := hcount (fun f => f.hdr == hdr i x false && !f.fromStorage)
      simp only [countP_one, hs, Bool.not_false, Bool.and_true] at c
      simp only [List.countP_append, countP_one, eia_ack]
      omega
    · exact h.i2
    · exact h.i3
    · intro i x
      have a := h.i4 i x
      have c := hcount (fun f => f.hdr == hdr i x true && f.fromStorage)
      simp only [countP_one, hs, Bool.and_false, Bool.toNat_false] at c
      dsimp only
      omega
    · intro i x
      have a := h.i5 i x
      have c := hcount (fun f => f.hdr == hdr i x false && f.fromStorage)
      simp only [countP_one, hs, Bool.and_false, Bool.toNat_false] at c
      dsimp only
      omega
    · intro x
      have a := h.i6 x
      have c := hcount (fun f => diskMsg x f.hdr && f.fromStorage)
      simp only [countP_one, hs, Bool.and_false, Bool.toNat_false] at c
      dsimp only
      omega
    · intro b
      have a := h.i7 b
      have c := hcount (fun f => f.hdr.bundle == b && (!f.fromStorage || f.hdr.cut))
      simp only [countP_one, hs, Bool.not_false, Bool.true_or, Bool.and_true] at c
      simp only [List.count_append, count_one]
      by_cases hb : f.hdr.bundle = b
      · have hbc : b.custody = false := by rw [← hb]; exact hp
        simp [hb, hbc] at a c ⊢
        omega
      · have hb' : (f.hdr.bundle == b) = false := by simpa using hb
        cases hcus : b.custody <;> simp [hb', hcus] at a c ⊢ <;> omega
    · exact h.st
    · exact h.ing
    · exact h.routes
    · intro r hr
      rcases List.mem_append.1 hr with hr | hr
      · exact h.eiRoutes r hr
      · simp at hr
    · exact h.ieCut
    · intro a ha
      rcases List.mem_append.1 ha with ha | ha
      · exact h.eiCut a ha
      · simp only [List.mem_singleton, EgressToIngress.ack.injEq] at ha
        subst ha
        exact hc
    · exact fun g hg => h.flCut g (hsub g hg)
    · exact h.isOk
    · exact h.ready
    · exact h.failed

end Hdtn.Node
