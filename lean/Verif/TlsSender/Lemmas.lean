import Verif.TlsSender.Spec
import Mathlib.Tactic.SplitIfs

namespace Hdtn.TlsSender

open Hdtn.TlsSender.Spec

theorem sends_append (a b : List Ev) : sends (a ++ b) = sends a ++ sends b := by
  induction a with
  | nil => rfl
  | cons e a ih => cases e <;> simp [sends, ih]

/-- What holds while no write failed: these elements were written, and the queue is the rest. -/
structure Live (s : Tx) (ok : List El) : Prop where
  err : s.err = false
  undef : s.undef = false
  writing : s.writing.map Prod.fst = s.queue.head?
  prog : s.inProgress = !s.queue.isEmpty
  wire : s.wire.map Prod.snd = ok.map El.bytes
  notes : s.notes = reports ok

/-- What holds after a write failed: these elements were written, one in part, and some were not. -/
structure Dead (c : Cfg) (s : Tx) (ok : List El) (e : El) (rest : List El) (k : Nat) : Prop where
  err : s.err = true
  undef : s.undef = false
  writing : s.writing = none
  queue : s.queue = []
  wire : s.wire.map Prod.snd = ok.map El.bytes ++ [e.bytes.take k]
  notes : s.notes = reports ok ++ report e false ++ failures c (e :: rest)

def Inv (c : Cfg) (s : Tx) (subs : List El) : Prop :=
  (∃ ok, subs = ok ++ s.queue ∧ Live s ok) ∨ ∃ ok e rest k, subs = ok ++ e :: rest ∧ Dead c s ok e rest k

theorem failures_append (c : Cfg) (a b : List El) : failures c (a ++ b) = failures c a ++ failures c b := by simp [failures]

theorem reports_append (a b : List El) : reports (a ++ b) = reports a ++ reports b := by simp [reports]

theorem inv_init (c : Cfg) : Inv c Tx.init [] := Or.inl ⟨[], rfl, ⟨rfl, rfl, rfl, rfl, rfl, rfl⟩⟩

theorem inv_send (c : Cfg) (s : Tx) (subs : List El) (e : El) (h : Inv c s subs) : Inv c (s.send c e) (subs ++ [e]) := by
  rcases h with ⟨ok, hs, h⟩ | ⟨ok, f, rest, k, hs, h⟩
  · left
    refine ⟨ok, ?_, ?_⟩
    · rw [hs]
      unfold Tx.send
      rw [if_neg (by rw [h.err]; decide)]
      simp only
      split_ifs
      · simp
      · cases s.queue <;> simp [Tx.start]
    · unfold Tx.send
      rw [if_neg (by rw [h.err]; decide)]
      simp only
      cases hq : s.queue with
      | nil =>
        have hp := h.prog
        have hw := h.writing
        rw [hq] at hp hw
        have hw' : s.writing = none := by simpa using hw
        rw [if_neg (by rw [hp]; decide)]
        exact ⟨h.err, (by simp [Tx.start, h.undef, hw']), (by simp [Tx.start]), (by simp [Tx.start]), h.wire, h.notes⟩
      | cons f l =>
        have hp := h.prog
        have hw := h.writing
        rw [hq] at hp hw
        rw [if_pos (by rw [hp]; rfl)]
        exact ⟨h.err, h.undef, hw, (by simp), h.wire, h.notes⟩
  · right
    refine ⟨ok, f, rest ++ [e], k, by rw [hs]; simp, ?_⟩
    unfold Tx.send
    rw [if_pos h.err]
    refine ⟨h.err, h.undef, h.writing, h.queue, h.wire, ?_⟩
    show s.notes ++ failed c e = _
    rw [h.notes, ← List.cons_append, failures_append]
    simp [failures, failed]

theorem inv_done (c : Cfg) (s : Tx) (subs : List El) (h : Inv c s subs) : Inv c s.done subs := by
  rcases h with ⟨ok, hs, h⟩ | ⟨ok, f, rest, k, hs, h⟩
  · have hw := h.writing
    cases hq : s.queue with
    | nil =>
      rw [hq] at hw
      have hw' : s.writing = none := by simpa using hw
      have : s.done = s := by unfold Tx.done; rw [hw']
      rw [this]; exact Or.inl ⟨ok, hs, h⟩
    | cons f rest =>
      rw [hq] at hw
      cases hwr : s.writing with
      | none => rw [hwr] at hw; cases hw
      | some x =>
        obtain ⟨e, l⟩ := x
        rw [hwr] at hw
        have hef : e = f := by simpa using hw
        subst hef
        left
        refine ⟨ok ++ [e], ?_, ?_⟩
        · rw [hs, hq]
          unfold Tx.done
          rw [hwr]
          simp only [hq]
          cases rest <;> simp [Tx.start]
        · have hwire : s.wire.map Prod.snd ++ [e.bytes] = (ok ++ [e]).map El.bytes := by rw [h.wire]; simp
          have hnotes : s.notes ++ report e true = reports (ok ++ [e]) := by
            rw [h.notes, reports_append]
            simp [reports, report]
          unfold Tx.done
          rw [hwr]
          simp only [hq]
          cases rest with
          | nil => exact ⟨h.err, h.undef, rfl, rfl, (by simpa using hwire), hnotes⟩
          | cons g rest =>
            have hp := h.prog
            rw [hq] at hp
            exact ⟨h.err, (by simp [Tx.start, h.undef]), rfl, hp, (by simpa [Tx.start] using hwire), hnotes⟩
  · have : s.done = s := by unfold Tx.done; rw [h.writing]
    rw [this]; exact Or.inr ⟨ok, f, rest, k, hs, h⟩

theorem inv_broke (c : Cfg) (s : Tx) (subs : List El) (k : Nat) (h : Inv c s subs) : Inv c (s.broke c k) subs := by
  rcases h with ⟨ok, hs, h⟩ | ⟨ok, f, rest, j, hs, h⟩
  · have hw := h.writing
    cases hq : s.queue with
    | nil =>
      rw [hq] at hw
      have hw' : s.writing = none := by simpa using hw
      have : s.broke c k = s := by unfold Tx.broke; rw [hw']
      rw [this]; exact Or.inl ⟨ok, hs, h⟩
    | cons f rest =>
      rw [hq] at hw
      cases hwr : s.writing with
      | none => rw [hwr] at hw; cases hw
      | some x =>
        obtain ⟨e, l⟩ := x
        rw [hwr] at hw
        have hef : e = f := by simpa using hw
        subst hef
        right
        refine ⟨ok, e, rest, k, by rw [hs, hq], ?_⟩
        unfold Tx.broke
        rw [hwr]
        simp only [hq]
        refine ⟨rfl, h.undef, rfl, rfl, ?_, ?_⟩
        · show (s.wire ++ [(l, e.bytes.take k)]).map Prod.snd = _
          rw [List.map_append, h.wire]; rfl
        · show s.notes ++ report e false ++ failed c e ++ rest.flatMap (failed c) = _
          rw [h.notes]
          have : failures c (e :: rest) = failed c e ++ rest.flatMap (failed c) := rfl
          rw [this]
          simp only [List.append_assoc]
  · have : s.broke c k = s := by unfold Tx.broke; rw [h.writing]
    rw [this]; exact Or.inr ⟨ok, f, rest, j, hs, h⟩

theorem run_append (c : Cfg) (s : Tx) (a b : List Ev) : s.run c (a ++ b) = (s.run c a).run c b := by unfold Tx.run; rw [List.foldl_append]

theorem inv_step (c : Cfg) (s : Tx) (subs : List El) (ev : Ev) (h : Inv c s subs) : Inv c (s.step c ev) (subs ++ sends [ev]) := by
  cases ev with
  | send e => exact inv_send c s subs e h
  | done => simpa [sends, Tx.step] using inv_done c s subs h
  | broke k => simpa [sends, Tx.step] using inv_broke c s subs k h

theorem inv_run (c : Cfg) (evs : List Ev) : ∀ (s : Tx) (subs : List El), Inv c s subs → Inv c (s.run c evs) (subs ++ sends evs) := by
  induction evs with
  | nil => intro s subs h; simpa [sends, Tx.run] using h
  | cons ev evs ih =>
    intro s subs h
    have := ih (s.step c ev) (subs ++ sends [ev]) (inv_step c s subs ev h)
    rw [List.append_assoc, ← sends_append] at this
    exact this

theorem done_queue (c : Cfg) (s : Tx) (ok : List El) (h : Live s ok) : s.done.queue = s.queue.tail := by
  have hw := h.writing
  cases hq : s.queue with
  | nil =>
    rw [hq] at hw
    have hw' : s.writing = none := by simpa using hw
    unfold Tx.done; rw [hw']; exact hq
  | cons f rest =>
    rw [hq] at hw
    cases hwr : s.writing with
    | none => rw [hwr] at hw; cases hw
    | some x =>
      unfold Tx.done; rw [hwr]; simp only [hq]
      cases rest <;> rfl

theorem done_err (s : Tx) : s.done.err = s.err := by
  unfold Tx.done
  split
  · rfl
  · simp only
    split
    · rfl
    · split <;> rfl

theorem drain (c : Cfg) (n : Nat) : ∀ (s : Tx) (subs : List El), s.err = false → Inv c s subs → s.queue.length = n →
    (s.run c (List.replicate n .done)).queue = [] ∧ (s.run c (List.replicate n .done)).err = false := by
  induction n with
  | zero => intro s subs he _ hn; exact ⟨List.length_eq_zero_iff.mp hn, he⟩
  | succ n ih =>
    intro s subs he h hn
    have hq : s.done.queue = s.queue.tail := by
      rcases h with ⟨ok, _, h⟩ | ⟨ok, f, rest, k, _, h⟩
      · exact done_queue c s ok h
      · rw [h.err] at he; cases he
    rw [List.replicate_succ]
    exact ih s.done subs (by rw [done_err]; exact he) (inv_done c s subs h) (by rw [hq, List.length_tail, hn]; rfl)

/-! ### Layers -/

theorem pairs_eq {α β : Type} (a : List (α × β)) : ∀ b : List (α × β), a.map Prod.fst = b.map Prod.fst → a.map Prod.snd = b.map Prod.snd → a = b := by
  induction a with
  | nil => intro b h _; cases b with
    | nil => rfl
    | cons y b => cases h
  | cons x a ih =>
    intro b h1 h2
    cases b with
    | nil => cases h1
    | cons y b =>
      simp only [List.map_cons, List.cons.injEq] at h1 h2
      rw [ih b h1.2 h2.2, Prod.ext h1.1 h2.1]

theorem wire_length (c : Cfg) (s : Tx) (subs : List El) (h : Inv c s subs) : s.wire.length ≤ subs.length := by
  rcases h with ⟨ok, hs, h⟩ | ⟨ok, f, rest, k, hs, h⟩
  · have := congrArg List.length h.wire
    rw [List.length_map, List.length_map] at this
    rw [hs, List.length_append]; omega
  · have := congrArg List.length h.wire
    rw [List.length_map, List.length_append, List.length_map, List.length_singleton] at this
    rw [hs, List.length_append, List.length_cons]; omega

/-- The layers of the writes are those of the first elements that were sent, and the queue is for the layer of the present write. -/
structure Lay (s : Tx) (subs : List El) : Prop where
  same : ∀ w, s.writing = some w → w.1.layer = w.2 ∧ ∀ e ∈ s.queue, e.layer = w.2
  wire : s.wire.map Prod.fst = (subs.take s.wire.length).map El.layer

theorem lay_send (c : Cfg) (s : Tx) (subs : List El) (e : El) (hi : Inv c s subs) (h : Lay s subs) (hs : ∀ f ∈ s.queue, f.layer = e.layer) :
    Lay (s.send c e) (subs ++ [e]) := by
  have hwire : s.wire.map Prod.fst = ((subs ++ [e]).take s.wire.length).map El.layer := by
    rw [List.take_append_of_le_length (wire_length c s subs hi)]; exact h.wire
  rcases hi with ⟨ok, _, hl⟩ | ⟨ok, f, rest, k, _, hl⟩
  · unfold Tx.send
    rw [if_neg (by rw [hl.err]; decide)]
    simp only
    cases hq : s.queue with
    | nil =>
      have hp := hl.prog
      rw [hq] at hp
      rw [if_neg (by rw [hp]; decide)]
      refine ⟨?_, hwire⟩
      intro w hw
      have hw' : some (e, e.layer) = some w := hw
      have := Option.some.inj hw'
      subst this
      refine ⟨rfl, ?_⟩
      intro f hf
      have hf' : f ∈ [e] := hf
      rw [List.mem_singleton] at hf'
      rw [hf']
    | cons f l =>
      have hp := hl.prog
      rw [hq] at hp
      rw [if_pos (by rw [hp]; rfl)]
      refine ⟨?_, hwire⟩
      intro w hw
      obtain ⟨h1, h2⟩ := h.same w hw
      refine ⟨h1, ?_⟩
      intro g hg
      have hg' : g ∈ (f :: l) ++ [e] := hg
      rcases List.mem_append.mp hg' with hx | hx
      · exact h2 g (by rw [hq]; exact hx)
      · rw [List.mem_singleton] at hx
        rw [hx, ← hs f (by rw [hq]; exact List.mem_cons_self)]
        exact h2 f (by rw [hq]; exact List.mem_cons_self)
  · unfold Tx.send
    rw [if_pos hl.err]
    exact ⟨h.same, hwire⟩

/-- The write in progress is that of the first in the queue, which is the next of those that were sent. -/
theorem head_writing (c : Cfg) (s : Tx) (subs : List El) (hi : Inv c s subs) (e : El) (l : Layer) (hw : s.writing = some (e, l)) :
    ∃ rest, s.queue = e :: rest ∧ subs.take (s.wire.length + 1) = subs.take s.wire.length ++ [e] := by
  rcases hi with ⟨ok, hs, hl⟩ | ⟨ok, f, rest, k, _, hl⟩
  · have := hl.writing
    rw [hw] at this
    cases hq : s.queue with
    | nil => rw [hq] at this; cases this
    | cons f rest =>
      rw [hq] at this
      have hef : e = f := by simpa using this
      subst hef
      refine ⟨rest, rfl, ?_⟩
      have hlen : s.wire.length = ok.length := by
        have := congrArg List.length hl.wire
        rwa [List.length_map, List.length_map] at this
      rw [hs, hq, hlen]
      simp [List.take_append, List.take_of_length_le]
  · rw [hl.writing] at hw; cases hw

theorem lay_wire (s : Tx) (subs : List El) (e : El) (l : Layer) (b : Bytes) (h : Lay s subs) (h1 : e.layer = l) (ht : subs.take (s.wire.length + 1) = subs.take s.wire.length ++ [e]) :
    (s.wire ++ [(l, b)]).map Prod.fst = (subs.take (s.wire ++ [(l, b)]).length).map El.layer := by
  rw [List.length_append, List.length_singleton, ht, List.map_append, List.map_append, h.wire]
  simp [h1]

theorem lay_done (c : Cfg) (s : Tx) (subs : List El) (hi : Inv c s subs) (h : Lay s subs) : Lay s.done subs := by
  cases hwr : s.writing with
  | none =>
    have : s.done = s := by unfold Tx.done; rw [hwr]
    rw [this]; exact h
  | some x =>
    obtain ⟨e, l⟩ := x
    obtain ⟨rest, hq, ht⟩ := head_writing c s subs hi e l hwr
    obtain ⟨h1, h2⟩ := h.same _ hwr
    have hwire := lay_wire s subs e l e.bytes h h1 ht
    unfold Tx.done
    rw [hwr]
    simp only [hq]
    cases rest with
    | nil => exact ⟨(fun w hw => by cases hw), hwire⟩
    | cons g rest =>
      refine ⟨?_, hwire⟩
      intro w hw
      have hw' : some (g, l) = some w := hw
      have := Option.some.inj hw'
      subst this
      have hall : ∀ f ∈ g :: rest, f.layer = l := fun f hf => h2 f (by rw [hq]; exact List.mem_cons_of_mem _ hf)
      exact ⟨hall g List.mem_cons_self, hall⟩

theorem lay_broke (c : Cfg) (s : Tx) (subs : List El) (k : Nat) (hi : Inv c s subs) (h : Lay s subs) : Lay (s.broke c k) subs := by
  cases hwr : s.writing with
  | none =>
    have : s.broke c k = s := by unfold Tx.broke; rw [hwr]
    rw [this]; exact h
  | some x =>
    obtain ⟨e, l⟩ := x
    obtain ⟨rest, hq, ht⟩ := head_writing c s subs hi e l hwr
    obtain ⟨h1, h2⟩ := h.same _ hwr
    unfold Tx.broke
    rw [hwr]
    simp only [hq]
    exact ⟨(fun w hw => by cases hw), lay_wire s subs e l (e.bytes.take k) h h1 ht⟩

theorem lay_run (c : Cfg) (evs : List Ev) : ∀ (s : Tx) (subs : List El), Inv c s subs → Lay s subs →
    (∀ evs1 evs2 e, evs = evs1 ++ .send e :: evs2 → ∀ f ∈ (s.run c evs1).queue, f.layer = e.layer) → Lay (s.run c evs) (subs ++ sends evs) := by
  induction evs with
  | nil => intro s subs _ h _; simpa [sends, Tx.run] using h
  | cons ev evs ih =>
    intro s subs hi h hs
    have hl : Lay (s.step c ev) (subs ++ sends [ev]) := by
      cases ev with
      | send e => exact lay_send c s subs e hi h (fun f hf => hs [] evs e rfl f hf)
      | done => simpa [sends, Tx.step] using lay_done c s subs hi h
      | broke k => simpa [sends, Tx.step] using lay_broke c s subs k hi h
    have := ih (s.step c ev) (subs ++ sends [ev]) (inv_step c s subs ev hi) hl (fun a b e hab f hf => hs (ev :: a) b e (by rw [hab]; rfl) f hf)
    rw [List.append_assoc, ← sends_append] at this
    exact this

end Hdtn.TlsSender
