import Verif.EncapDuct.Spec
import Mathlib.Tactic.SplitIfs
import Mathlib.Tactic.ByContra

namespace Hdtn.EncapDuct

open Spec Hdtn.Encap

/-- The pair of a place. -/
def Entry.pair (e : Entry) : Nat × Bytes := (e.user, e.bundle)

/-- What holds in every state of the outduct; `ok` are the bundles that were written. -/
structure Inv (s : Out) (ok : List (Nat × Entry)) : Prop where
  split : accepted s = ok.map (fun x => x.2.pair) ++ s.back ++ s.ring.map Entry.pair
  done : s.done = ok.map fun x => x.2.user
  headers : (∀ x ∈ ok, encode .bp (x.2.bundle.length % U32) = some x.2.header) ∧ ∀ e ∈ s.ring, encode .bp (e.bundle.length % U32) = some e.header
  busy : s.writing ≠ none → s.ring ≠ [] ∧ s.error = false
  go : s.ring ≠ [] → 0 < s.posts ∨ s.writing ≠ none
  clean : s.error = false → s.back = [] ∧ s.wire = ok.map fun x => (x.1, x.2.bytes)
  broken : s.error = true → ∃ (c : Nat) (e : Entry) (k : Nat), encode .bp (e.bundle.length % U32) = some e.header ∧
    s.wire = (ok.map fun x => (x.1, x.2.bytes)) ++ [(c, e.bytes.take k)] ∧ (s.back ++ s.ring.map Entry.pair).head? = some e.pair
  counts : s.sent = (accepted s).length ∧ s.acked = s.done.length ∧ s.failed = s.back.length
  bytes : s.bytesSent = ((accepted s).map fun x => x.2.length).sum ∧ s.bytesAcked = (ok.map fun x => x.2.bundle.length).sum
  room : s.ring.length ≤ s.limit + 4

theorem accepted_same {s s' : Out} (h : s'.results = s.results) : accepted s' = accepted s := by
  unfold accepted; rw [h]

theorem accepted_no {s s' : Out} {u : Nat} {b : Bytes} (h : s'.results = s.results ++ [(u, b, false)]) : accepted s' = accepted s := by
  unfold accepted; rw [h]; simp

theorem accepted_yes {s s' : Out} {u : Nat} {b : Bytes} (h : s'.results = s.results ++ [(u, b, true)]) : accepted s' = accepted s ++ [(u, b)] := by
  unfold accepted; rw [h]; simp

/-- The invariant but for `go`, in a state in which `TrySend…` is about to run. -/
theorem inv_try {s : Out} {ok : List (Nat × Entry)} (h : Inv { s with posts := s.posts + 1 } ok) (hn : s.error = true → s.writing = none) : Inv s.trySend ok := by
  obtain ⟨h1, h2, h3, h4, h5, h6, h7, h8, h9, h10⟩ := h
  have ha : accepted { s with posts := s.posts + 1 } = accepted s := accepted_same rfl
  rw [ha] at h1 h8 h9
  simp only at h1 h2 h3 h4 h5 h6 h7 h8 h9 h10
  unfold Out.trySend
  cases hr : s.ring with
  | nil =>
    exact ⟨h1, h2, h3, h4, fun hc => absurd hr hc, h6, h7, h8, h9, h10⟩
  | cons e rest =>
    rw [hr] at h1 h3 h4 h5 h7 h10
    simp only
    by_cases he : s.error = true
    · rw [if_pos he]
      obtain ⟨c, e', k, g1, g2, g3⟩ := h7 he
      refine ⟨?_, h2, ⟨h3.1, fun x hx => h3.2 x (List.mem_cons_of_mem _ hx)⟩, fun hc => absurd (hn he) hc, fun _ => .inl (Nat.succ_pos _), fun hc => ?_, fun _ => ⟨c, e', k, g1, g2, ?_⟩, ?_, ?_, ?_⟩
      · refine (accepted_same (s := s) rfl).trans ?_; rw [h1]; simp [Entry.pair]
      · simp only at hc; rw [he] at hc; cases hc
      · rw [← g3]; simp [Entry.pair]
      · exact ⟨h8.1, h8.2.1, by simp only [List.length_append, List.length_singleton]; omega⟩
      · exact h9
      · simp only [List.length_cons] at h10 ⊢; omega
    · rw [if_neg he]
      by_cases hw : s.writing.isSome = true
      · rw [if_pos hw]
        refine ⟨by rw [hr]; exact h1, h2, by rw [hr]; exact h3, by rw [hr]; exact h4, fun _ => .inr ?_, h6, fun hc => absurd hc he, h8, h9, by rw [hr]; exact h10⟩
        intro hc; rw [hc] at hw; cases hw
      · rw [if_neg hw]
        refine ⟨?_, h2, ?_, fun _ => ⟨?_, ?_⟩, fun _ => .inr (by simp), h6, fun hc => absurd hc he, ?_, ?_, ?_⟩
        · refine (accepted_same (s := s) rfl).trans ?_; simp only [hr]; exact h1
        · simp only [hr]; exact h3
        · simp only [hr]; simp
        · simpa using he
        · exact h8
        · exact h9
        · simp only [hr]; exact h10

theorem Inv.morePosts {s : Out} {ok : List (Nat × Entry)} (h : Inv s ok) (n : Nat) (hn : 0 < n) : Inv { s with posts := n } ok := by
  have ha : accepted { s with posts := n } = accepted s := accepted_same rfl
  exact ⟨by rw [ha]; exact h.split, h.done, h.headers, h.busy, fun _ => .inl hn, h.clean, h.broken, by rw [ha]; exact h.counts, by rw [ha]; exact h.bytes, h.room⟩

theorem Inv.quiet {s : Out} {ok : List (Nat × Entry)} (h : Inv s ok) (he : s.error = true) : s.writing = none := by
  by_contra hc
  rw [(h.busy hc).2] at he
  cases he

theorem inv_post {s : Out} {ok : List (Nat × Entry)} (h : Inv s ok) : Inv s.post ok := by
  unfold Out.post
  by_cases hp : s.posts = 0
  · rw [if_pos hp]; exact h
  · rw [if_neg hp]
    exact inv_try (h.morePosts (s.posts - 1 + 1) (Nat.succ_pos _)) h.quiet

theorem inv_forward {s : Out} {ok : List (Nat × Entry)} (h : Inv s ok) (u : Nat) (b : Bytes) : Inv (s.forward u b) ok := by
  have no : Inv { s with results := s.results ++ [(u, b, false)] } ok := by
    have ha : accepted { s with results := s.results ++ [(u, b, false)] } = accepted s := accepted_no rfl
    exact ⟨by rw [ha]; exact h.split, h.done, h.headers, h.busy, h.go, h.clean, h.broken, by rw [ha]; exact h.counts, by rw [ha]; exact h.bytes, h.room⟩
  unfold Out.forward
  simp only
  split_ifs with h1 h2
  · exact no
  · exact no
  · cases he : encode .bp (b.length % U32) with
    | none => exact no
    | some header =>
      simp only
      refine ⟨?_, h.done, ⟨h.headers.1, ?_⟩, fun hc => ⟨by simp, (h.busy hc).2⟩, fun _ => .inl (Nat.succ_pos _), h.clean, ?_, ?_, ?_, ?_⟩
      · refine (accepted_yes (s := s) rfl).trans ?_; rw [h.split]; simp [Entry.pair]
      · intro e hm
        rcases List.mem_append.mp hm with hm | hm
        · exact h.headers.2 e hm
        · rw [List.mem_singleton.mp hm]; exact he
      · intro hc
        obtain ⟨c, e, k, g1, g2, g3⟩ := h.broken hc
        refine ⟨c, e, k, g1, g2, ?_⟩
        simp only [List.map_append, ← List.append_assoc]
        rw [List.head?_append, g3]; rfl
      · have := h.counts
        exact ⟨by rw [accepted_yes (s := s) (u := u) (b := b) rfl]; simp only [List.length_append, List.length_singleton]; omega, this.2⟩
      · rw [accepted_yes (s := s) rfl]
        have := h.bytes
        refine ⟨?_, this.2⟩
        simp only [List.map_append, List.map_cons, List.map_nil, List.sum_append, List.sum_cons, List.sum_nil, this.1]
        omega
      · simp only [List.length_append, List.length_singleton]; omega

theorem inv_written {s : Out} {ok : List (Nat × Entry)} (h : Inv s ok) : ∃ ok', Inv s.written ok' ∧ ∃ more, ok' = ok ++ more := by
  unfold Out.written
  cases hw : s.writing with
  | none => exact ⟨ok, h, [], by simp⟩
  | some c =>
    cases hr : s.ring with
    | nil => exact ⟨ok, h, [], by simp⟩
    | cons e rest =>
      have hb := h.busy (by rw [hw]; simp)
      have hc := h.clean hb.2
      refine ⟨ok ++ [(c, e)], ?_, [(c, e)], rfl⟩
      refine inv_try ?_ (fun hx => ?_)
      · refine ⟨?_, ?_, ⟨?_, ?_⟩, fun hx => absurd rfl hx, fun _ => .inl (Nat.succ_pos _), fun _ => ⟨hc.1, ?_⟩, fun hx => ?_, ?_, ?_, ?_⟩
        · refine (accepted_same (s := s) rfl).trans ?_; rw [h.split, hr, hc.1]; simp
        · simp only [h.done, List.map_append, List.map_cons, List.map_nil]
        · intro x hx
          rcases List.mem_append.mp hx with hx | hx
          · exact h.headers.1 x hx
          · rw [List.mem_singleton.mp hx]
            exact h.headers.2 e (by rw [hr]; exact List.mem_cons_self)
        · intro x hx
          exact h.headers.2 x (by rw [hr]; exact List.mem_cons_of_mem _ hx)
        · simp only [hc.2, List.map_append, List.map_cons, List.map_nil]
        · simp only at hx; rw [hb.2] at hx; cases hx
        · have := h.counts
          exact ⟨this.1, by simp only [List.length_append, List.length_singleton]; omega, this.2.2⟩
        · have := h.bytes
          refine ⟨this.1, ?_⟩
          simp only [List.map_append, List.map_cons, List.map_nil, List.sum_append, List.sum_cons, List.sum_nil, this.2]
          omega
        · have := h.room
          rw [hr] at this
          simp only [List.length_cons] at this ⊢
          omega
      · rfl

theorem inv_broken {s : Out} {ok : List (Nat × Entry)} (h : Inv s ok) (k : Nat) : Inv (s.broken k) ok := by
  unfold Out.broken
  cases hw : s.writing with
  | none => exact h
  | some c =>
    cases hr : s.ring with
    | nil => exact h
    | cons e rest =>
      have hb := h.busy (by rw [hw]; simp)
      have hc := h.clean hb.2
      refine inv_try ?_ (fun _ => rfl)
      refine ⟨?_, h.done, ?_, fun hx => absurd rfl hx, fun _ => .inl (Nat.succ_pos _), fun hx => (nomatch hx), fun _ => ⟨c, e, k, ?_, ?_, ?_⟩, ?_, ?_, ?_⟩
      · rw [← hr]; exact h.split
      · rw [← hr]; exact h.headers
      · exact h.headers.2 e (by rw [hr]; exact List.mem_cons_self)
      · simp only [hc.2]
      · simp only [hc.1]; rfl
      · exact h.counts
      · exact h.bytes
      · rw [← hr]; exact h.room

theorem inv_step {s : Out} {ok : List (Nat × Entry)} (h : Inv s ok) (ev : Ev) : ∃ more, Inv (s.step ev) (ok ++ more) := by
  cases ev with
  | forward u b => exact ⟨[], by simpa [Out.step] using inv_forward h u b⟩
  | post => exact ⟨[], by simpa [Out.step] using inv_post h⟩
  | written =>
    obtain ⟨ok', h1, more, rfl⟩ := inv_written h
    exact ⟨more, h1⟩
  | broken k => exact ⟨[], by simpa [Out.step] using inv_broken h k⟩
  | up =>
    refine ⟨[], ?_⟩
    have ha : accepted (s.step .up) = accepted s := accepted_same rfl
    rw [List.append_nil]
    exact ⟨by rw [ha]; exact h.split, h.done, h.headers, h.busy, h.go, h.clean, h.broken, by rw [ha]; exact h.counts, by rw [ha]; exact h.bytes, h.room⟩
  | down =>
    refine ⟨[], ?_⟩
    have ha : accepted (s.step .down) = accepted s := accepted_same rfl
    rw [List.append_nil]
    exact ⟨by rw [ha]; exact h.split, h.done, h.headers, h.busy, h.go, h.clean, h.broken, by rw [ha]; exact h.counts, by rw [ha]; exact h.bytes, h.room⟩

theorem inv_run (evs : List Ev) : ∀ {s : Out} {ok : List (Nat × Entry)}, Inv s ok → ∃ more, Inv (s.run evs) (ok ++ more) := by
  induction evs with
  | nil => intro s ok h; exact ⟨[], by simpa [Out.run] using h⟩
  | cons ev evs ih =>
    intro s ok h
    obtain ⟨m1, h1⟩ := inv_step h ev
    obtain ⟨m2, h2⟩ := ih h1
    exact ⟨m1 ++ m2, by rw [← List.append_assoc]; exact h2⟩

theorem inv_init (limit : Nat) : Inv { limit := limit } [] :=
  ⟨rfl, rfl, ⟨by simp, by simp⟩, fun h => absurd rfl h, fun h => absurd rfl h, fun _ => ⟨rfl, rfl⟩, fun h => (nomatch h), ⟨rfl, rfl, rfl⟩, ⟨rfl, rfl⟩, Nat.zero_le _⟩

theorem reach (limit : Nat) (evs : List Ev) : ∃ ok, Inv (({ limit := limit } : Out).run evs) ok := by
  obtain ⟨ok, h⟩ := inv_run evs (inv_init limit)
  exact ⟨[] ++ ok, h⟩

end Hdtn.EncapDuct
