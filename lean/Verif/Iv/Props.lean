import Verif.Iv.Lemmas

/-!
C89: initialization vectors are not used twice.
-/

namespace Hdtn.Iv

open Spec

/-- **C89**: in every history of a process, whatever the clock shows, all vectors issued are
different, if no object has issued more than 100000 times 2^32 of the short ones and 100000 times
2^64 of the long ones. -/
theorem C89_unique (es : List Event) (hc : ClockOk es)
    (hs : ∀ i, issuedBy (Process.run es) i true ≤ 100000 * 2 ^ 32)
    (hl : ∀ i, issuedBy (Process.run es) i false ≤ 100000 * 2 ^ 64) :
    ((Process.run es).issued.map (·.2.2)).Nodup := by
  induction es using List.reverseRecOn with
  | nil => simp [Process.run, Process.init]
  | append_singleton es e ih =>
    have hc' : ClockOk es := fun c h => hc c (List.mem_append_left _ h)
    obtain ⟨ts, hinv⟩ := run_inv es hc'
    rw [run_snoc] at hs hl ⊢
    cases e with
    | create clock =>
      simp only [Process.step] at hs hl ⊢
      cases h : create (Process.run es).last clock with
      | none => rw [h] at hs hl; exact ih hc' hs hl
      | some t => rw [h] at hs hl; exact ih hc' hs hl
    | next i s =>
      simp only [Process.step] at hs hl ⊢
      cases hg : (Process.run es).gens[i]? with
      | none => rw [hg] at hs hl; exact ih hc' hs hl
      | some g =>
        rw [hg] at hs hl
        simp only [issuedBy_step] at hs hl
        simp only [List.map_append, List.map_cons, List.map_nil]
        rw [List.nodup_append]
        refine ⟨ih hc' (fun j => by have := hs j; omega) (fun j => by have := hl j; omega), by simp, ?_⟩
        intro a ha b hb
        rw [List.mem_singleton.mp hb]
        obtain ⟨x, hx, rfl⟩ := List.mem_map.mp ha
        obtain ⟨t, k, hx1, hx2, hx3⟩ := hinv.issued x hx
        have hlt : i < ts.length := by
          rw [← hinv.length]; exact (List.getElem?_eq_some_iff.mp hg).1
        obtain ⟨n1, _, _⟩ := next_eq s (hinv.gen i g ts[i] hg (List.getElem?_eq_getElem hlt))
        have hn : (g.next s).2 = nth s ts[i] (issuedBy (Process.run es) i s) := by
          rw [n1]; cases s <;> rfl
        rw [hx3, hn]
        intro he
        have hb1 : ∀ j s', issuedBy (Process.run es) j s' + (if i = j ∧ s = s' then 1 else 0) ≤
            minDiff * 256 ^ counterBytes s' := by
          intro j s'
          cases s' with
          | true => exact hs j
          | false => exact hl j
        have h1 := hb1 x.1 x.2.1
        have h2 := hb1 i s
        simp only [and_self, if_true] at h2
        obtain ⟨e1, e2, e3⟩ := nth_inj hinv hx1 (List.getElem?_eq_getElem hlt) (by omega) (by omega) he
        rw [e1, e2] at hx2
        omega

/-- Two objects, the second created after two readings that were too early; both lengths. -/
def exampleEvents : List Event :=
  [.create [5, 700000], .next 0 true, .next 0 false, .create [700000, 750000, 800000], .next 1 true, .next 0 true,
    .next 1 false]

example : ClockOk exampleEvents ∧ (Process.run exampleEvents).issued.length = 5 ∧
    (Process.run exampleEvents).gens = [⟨⟨700000, 2⟩, ⟨700000, 1⟩⟩, ⟨⟨800000, 1⟩, ⟨800000, 1⟩⟩] := by
  refine ⟨?_, by decide +kernel, by decide +kernel⟩
  intro clock hc t ht
  simp only [exampleEvents, List.mem_cons, Event.create.injEq, reduceCtorEq, List.not_mem_nil, or_false,
    false_or] at hc
  rcases hc with rfl | rfl <;> simp at ht <;> omega

/-- **C89**, the length: a vector has 12 or 16 bytes, as asked for. -/
theorem C89_length (g : Gen) (short : Bool) : (g.next short).2.length = if short then 12 else 16 := by
  unfold Gen.next
  cases short <;> simp [Vector.serialize, toLe_length, counterBytes]

/-- The bound on the number is needed: one more short vector is the first of an object created
100 ms later. -/
theorem C89_bound (t : Nat) :
    nth true t (100000 * 2 ^ 32) = nth true (t + 100000) 0 := by
  have h : counterBytes true = 4 := rfl
  have e : t * 256 ^ 4 + 100000 * 2 ^ 32 = (t + 100000) * 256 ^ 4 + 0 := by omega
  unfold nth
  rw [h, e]

/-- **C89 fails** across processes: the first vector is made of the time alone, so that a process
that reads a time an earlier one has read issues the vector of the earlier one. -/
theorem C89_restart_violated (t : Nat) (ht : 100000 ≤ t) :
    (Process.run [.create [t], .next 0 true]).issued = [(0, true, toLe 8 t ++ [0, 0, 0, 0])] := by
  have hc : create 0 [t] = some t := by
    unfold create
    rw [if_pos (by omega), if_pos (by show t - 0 ≥ 100000; omega)]
  simp [Process.run, Process.step, Process.init, hc, Gen.next, Vector.serialize, Vector.start, counterBytes, toLe]

end Hdtn.Iv
