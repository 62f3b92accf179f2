import Verif.FileMem.Data

/-!
How often handlers are called, and with what.
-/

namespace Hdtn.FileMem

open Hdtn.FileMem.Spec

/-- The operations that calls put into the queues have new handlers. -/
theorem call_new (m : Mem) (a : Api) : ∃ new, (m.call a).ops = m.ops ++ new ∧ m.nextHandle ≤ (m.call a).nextHandle ∧
    ∀ op ∈ new, op.handle = m.nextHandle ∧ m.nextHandle < (m.call a).nextHandle := by
  have hreq : ∀ (m : Mem) rs, ∃ new, (m.requests m.nextHandle 0 rs).2.ops = m.ops ++ new ∧ ∀ op ∈ new, op.handle = m.nextHandle := by
    intro m rs
    obtain ⟨new, e, e2, _⟩ := requests_add m m.nextHandle 0 rs
    refine ⟨new, by rw [e]; rfl, fun op hop => ?_⟩
    obtain ⟨k, r, _, h2⟩ := mem_allOps (e2.subset hop)
    obtain ⟨_, _, _, g, _⟩ := mem_opsOf h2
    exact g
  have hle := (call_keeps m a).2.2.1
  cases a with
  | write reqs =>
    obtain ⟨new, h1, h2⟩ := hreq m (reqs.map ofWrite)
    exact ⟨new, h1, hle, fun op hop => ⟨h2 op hop, Nat.lt_succ_self _⟩⟩
  | read reqs =>
    obtain ⟨new, h1, h2⟩ := hreq m (reqs.map ofRead)
    exact ⟨new, h1, hle, fun op hop => ⟨h2 op hop, Nat.lt_succ_self _⟩⟩
  | alloc size d =>
    refine ⟨[], ?_, hle, by simp⟩
    rw [List.append_nil]
    exact (resizeBlock_keeps ({ m with nextBlock := m.nextBlock + 1, blocks := fun i => if i = m.nextBlock then some ⟨[], 0, 0, false⟩ else m.blocks i } : Mem)
      m.nextBlock size d ⟨[], 0, 0, false⟩ (by simp)).1
  | resize id size d =>
    refine ⟨[], ?_, hle, by simp⟩
    rw [List.append_nil]
    unfold Mem.call Mem.resize
    dsimp only
    cases hb : m.blocks id with
    | none => rfl
    | some b => exact (resizeBlock_keeps m id size d b hb).1
  | delete id =>
    refine ⟨[], ?_, hle, by simp⟩
    rw [List.append_nil]
    unfold Mem.call Mem.delete
    dsimp only
    split
    · rfl
    · split_ifs <;> rfl

theorem calls_new (m : Mem) (as : List Api) : ∃ new, (as.foldl Mem.call m).ops = m.ops ++ new ∧ m.nextHandle ≤ (as.foldl Mem.call m).nextHandle ∧
    (as.foldl Mem.call m).calls = m.calls ∧ ∀ op ∈ new, m.nextHandle ≤ op.handle ∧ op.handle < (as.foldl Mem.call m).nextHandle := by
  induction as generalizing m with
  | nil => exact ⟨[], by simp, Nat.le_refl _, rfl, by simp⟩
  | cons a as ih =>
    obtain ⟨n1, h1, h2, h3⟩ := call_new m a
    obtain ⟨n2, k1, k2, k3, k4⟩ := ih (m.call a)
    refine ⟨n1 ++ n2, by rw [List.foldl_cons, k1, h1, List.append_assoc], Nat.le_trans h2 k2, k3.trans (call_keeps m a).2.2.2.1, fun op hop => ?_⟩
    rw [List.foldl_cons]
    rcases List.mem_append.1 hop with hop | hop
    · have := h3 op hop
      omega
    · have := k4 op hop
      omega

/-! ### At most once -/

structure Once (m : Mem) : Prop where
  le : ∀ h, m.calls.countP (fun c => c.1 = h) ≤ 1
  none : ∀ op ∈ m.ops, m.calls.countP (fun c => c.1 = op.handle) = 0
  opsLt : ∀ op ∈ m.ops, op.handle < m.nextHandle
  callsLt : ∀ c ∈ m.calls, c.1 < m.nextHandle

theorem count_fresh {l : List (Nat × Bool)} {n h : Nat} (hl : ∀ c ∈ l, c.1 < n) (hh : n ≤ h) : l.countP (fun c => c.1 = h) = 0 := by
  rw [List.countP_eq_zero]
  intro c hc
  have := hl c hc
  simp
  omega

theorem once_call {m : Mem} (hm : Once m) (a : Api) : Once (m.call a) := by
  obtain ⟨new, h1, h2, h3⟩ := call_new m a
  obtain ⟨_, _, _, k4, _⟩ := call_keeps m a
  constructor
  · rw [k4]
    exact hm.le
  · intro op hop
    rw [k4]
    rw [h1] at hop
    rcases List.mem_append.1 hop with hop | hop
    · exact hm.none op hop
    · exact count_fresh hm.callsLt (Nat.le_of_eq (h3 op hop).1.symm)
  · intro op hop
    rw [h1] at hop
    rcases List.mem_append.1 hop with hop | hop
    · exact Nat.lt_of_lt_of_le (hm.opsLt op hop) h2
    · rw [(h3 op hop).1]
      exact (h3 op hop).2
  · rw [k4]
    exact fun c hc => Nat.lt_of_lt_of_le (hm.callsLt c hc) h2

/-- What is left when an operation leaves its queue. -/
theorem finish_keeps {m : Mem} (hs : Safe m) {op : Op} (hop : op ∈ m.ops) :
    (m.finish op).ops = m.ops.eraseP (fun o => decide (o.file = op.file)) ∧ (m.finish op).calls = m.calls ∧ (m.finish op).nextHandle = m.nextHandle ∧
    (m.finish op).trace = m.trace := by
  obtain ⟨b, hb, _⟩ := hs.live op hop
  unfold Mem.finish
  rw [hb]
  exact ⟨rfl, rfl, rfl, rfl⟩

/-- The state after an operation has ended, in terms of queues and calls. -/
theorem complete_cases {m : Mem} (hs : Safe m) (file : Nat) (error : Bool) (inner : List Api) :
    m.complete file error inner = m ∨
    ∃ op pre post new, m.ops = pre ++ op :: post ∧ op.file = file ∧ (∀ o ∈ pre, o.file ≠ op.file) ∧ (m.complete file error inner).ops = pre ++ post ++ new ∧
      m.nextHandle ≤ (m.complete file error inner).nextHandle ∧
      (∀ o ∈ new, m.nextHandle ≤ o.handle ∧ o.handle < (m.complete file error inner).nextHandle) ∧
      (m.ops.countP (fun o => o.handle = op.handle) = 1 ∧ (op.data = none ∨ error = false) ∧
        (m.complete file error inner).calls = m.calls ++ [(op.handle, !error && !(op.data.isNone && decide (op.len ≠ 0) && decide ((m.disk file).size < op.offset + op.len)))] ∧
        (∃ t, (m.complete file error inner).trace = t ++ m.trace ∧ ∀ a h ok, (a, Res.request h ok) ∈ t → m.nextHandle ≤ h) ∨
       (m.ops.countP (fun o => o.handle = op.handle) ≠ 1 ∨ op.data ≠ none ∧ error = true) ∧ (m.complete file error inner).calls = m.calls ∧
        (m.complete file error inner).trace = m.trace ∧ new = []) := by
  unfold Mem.complete
  split
  · exact .inl rfl
  · rename_i op hop
    right
    obtain ⟨hf, pre, post, h1, hpre, h3⟩ := find_split hop
    have hpre : ∀ o ∈ pre, o.file ≠ op.file := by rw [hf]; exact hpre
    have hmem : op ∈ m.ops := by rw [h1]; simp
    dsimp only
    generalize hm1 : (if error = true then m else ({ m with disk := op.apply m.disk, buffer := op.fetch m.disk m.buffer } : Mem)) = m1
    have hs1 : Safe m1 := by
      subst hm1
      split_ifs
      · exact hs
      · exact safe_io hs _ _ m.calls
    have hk : m1.ops = m.ops ∧ m1.calls = m.calls ∧ m1.nextHandle = m.nextHandle ∧ m1.trace = m.trace := by
      subst hm1
      split_ifs <;> exact ⟨rfl, rfl, rfl, rfl⟩
    obtain ⟨k1, k2, k3, k4⟩ := hk
    split_ifs with hl
    · have hs2 : Safe { m1 with calls := m1.calls ++ [(op.handle, !error && !(op.data.isNone && decide (op.len ≠ 0) && decide ((m.disk file).size < op.offset + op.len)))] } :=
        safe_io hs1 m1.disk m1.buffer _
      obtain ⟨new, n1, n2, n3, n4⟩ := calls_new { m1 with calls := m1.calls ++ [(op.handle, !error && !(op.data.isNone && decide (op.len ≠ 0) && decide ((m.disk file).size < op.offset + op.len)))] } inner
      have htr : ∀ (as : List Api) (x : Mem), ∃ t, (as.foldl Mem.call x).trace = t ++ x.trace ∧ ∀ a h ok, (a, Res.request h ok) ∈ t → x.nextHandle ≤ h := by
        intro as
        induction as with
        | nil => exact fun x => ⟨[], rfl, by simp⟩
        | cons a as ih =>
          intro x
          obtain ⟨t, t1, t2⟩ := ih (x.call a)
          obtain ⟨_, _, c1, _, res, c2, c3⟩ := call_keeps x a
          refine ⟨t ++ [(a, res)], by rw [List.foldl_cons, t1, c2, List.append_assoc]; rfl, fun a' h ok hm => ?_⟩
          rcases List.mem_append.1 hm with hm | hm
          · exact Nat.le_trans c1 (t2 a' h ok hm)
          · simp only [List.mem_singleton, Prod.mk.injEq] at hm
            rw [c3 h ok hm.2.symm]
      obtain ⟨t, t1, t2⟩ := htr inner { m1 with calls := m1.calls ++ [(op.handle, !error && !(op.data.isNone && decide (op.len ≠ 0) && decide ((m.disk file).size < op.offset + op.len)))] }
      have hs3 := safe_calls hs2 inner
      revert n1 n2 n3 n4 t1 t2 hs3
      generalize List.foldl Mem.call _ inner = m2
      intro n1 n2 n3 n4 t1 t2 hs3
      dsimp only at n1 n2 n3 n4 t1 t2
      rw [k1] at n1
      obtain ⟨f1, f2, f3, f4⟩ := finish_keeps hs3 (op := op) (by rw [n1]; simp [hmem])
      refine ⟨op, pre, post, new, h1, hf, hpre, ?_, ?_, ?_, .inl ⟨?_, ?_, ?_, t, ?_, ?_⟩⟩
      · rw [f1, n1, hf, h3 new]
      · rw [f3, ← k3]; exact n2
      · rw [f3, ← k3]; exact n4
      · simpa using (Bool.and_eq_true_iff.1 hl).1
      · simpa using (Bool.and_eq_true_iff.1 hl).2
      · rw [f2, n3, k2]
      · rw [f4, t1, k4]
      · rw [← k3]; exact t2
    · obtain ⟨f1, f2, f3, f4⟩ := finish_keeps hs1 (op := op) (by rw [k1]; exact hmem)
      refine ⟨op, pre, post, [], h1, hf, hpre, ?_, ?_, by simp, .inr ⟨?_, ?_, ?_, rfl⟩⟩
      · rw [f1, k1]
        have := h3 []
        rw [List.append_nil] at this
        rw [hf, this]
      · rw [f3, k3]
      · simp only [Bool.and_eq_true, decide_eq_true_eq, Bool.or_eq_true, Option.isNone_iff_eq_none, Bool.not_eq_true', not_and, not_or, Bool.not_eq_false] at hl
        by_cases hc : m.ops.countP (fun o => o.handle = op.handle) = 1
        · exact .inr (hl hc)
        · exact .inl hc
      · rw [f2, k2]
      · rw [f4, k4]

theorem once_complete {m : Mem} (hs : Safe m) (hm : Once m) (file : Nat) (error : Bool) (inner : List Api) : Once (m.complete file error inner) := by
  rcases complete_cases hs file error inner with e | ⟨op, pre, post, new, h1, _, hpre, h2, h3, h4, h5⟩
  · rw [e]
    exact hm
  generalize m.complete file error inner = m' at *
  have hmem : op ∈ m.ops := by rw [h1]; simp
  have hsub : ∀ o ∈ pre ++ post, o ∈ m.ops := by
    intro o hx
    rw [h1]
    rcases List.mem_append.1 hx with hx | hx <;> simp [hx]
  have hops : ∀ o ∈ m'.ops, o ∈ pre ++ post ∨ m.nextHandle ≤ o.handle ∧ o.handle < m'.nextHandle := by
    intro o ho
    rw [h2] at ho
    rcases List.mem_append.1 ho with ho | ho
    · exact .inl ho
    · exact .inr (h4 o ho)
  have hlt := hm.opsLt op hmem
  rcases h5 with ⟨c1, _, c3, _⟩ | ⟨_, c3, _⟩
  · have hone : ∀ o ∈ pre ++ post, o.handle ≠ op.handle := by
      intro o ho hh
      have hc : m.ops.countP (fun o => o.handle = op.handle) = (pre ++ post).countP (fun o => o.handle = op.handle) + 1 := by
        rw [h1, List.countP_append, List.countP_append, List.countP_cons]
        simp
        omega
      have : (pre ++ post).countP (fun o => o.handle = op.handle) = 0 := by omega
      have := List.countP_eq_zero.1 this o ho
      simp [hh] at this
    constructor
    · intro h
      rw [c3, List.countP_append]
      by_cases hh : h = op.handle
      · rw [hh, hm.none op hmem]
        simp
      · have hh' : op.handle ≠ h := fun e => hh e.symm
        simp [hh', hm.le h]
    · intro o ho
      rw [c3, List.countP_append]
      rcases hops o ho with ho | ho
      · rw [hm.none o (hsub o ho)]
        have : op.handle ≠ o.handle := fun e => hone o ho e.symm
        simp [this]
      · rw [count_fresh hm.callsLt ho.1]
        have : op.handle ≠ o.handle := by omega
        simp [this]
    · intro o ho
      rcases hops o ho with ho | ho
      · exact Nat.lt_of_lt_of_le (hm.opsLt o (hsub o ho)) h3
      · exact ho.2
    · intro c hc
      rw [c3] at hc
      rcases List.mem_append.1 hc with hc | hc
      · exact Nat.lt_of_lt_of_le (hm.callsLt c hc) h3
      · simp only [List.mem_singleton] at hc
        rw [hc]
        exact Nat.lt_of_lt_of_le hlt h3
  · constructor
    · rw [c3]
      exact hm.le
    · intro o ho
      rw [c3]
      rcases hops o ho with ho | ho
      · exact hm.none o (hsub o ho)
      · exact count_fresh hm.callsLt ho.1
    · intro o ho
      rcases hops o ho with ho | ho
      · exact Nat.lt_of_lt_of_le (hm.opsLt o (hsub o ho)) h3
      · exact ho.2
    · rw [c3]
      exact fun c hc => Nat.lt_of_lt_of_le (hm.callsLt c hc) h3

theorem once_run {m : Mem} (hs : Safe m) (hm : Once m) (es : List Ev) : Once (m.run es) := by
  induction es generalizing m with
  | nil => exact hm
  | cons e es ih =>
    refine ih (safe_step hs e) ?_
    cases e with
    | call a => exact once_call hm a
    | complete f er inner => exact once_complete hs hm f er inner
    | force =>
      unfold Mem.step Mem.force
      dsimp only
      split
      · exact hm
      · exact ⟨hm.le, hm.none, hm.opsLt, hm.callsLt⟩
    | timer => exact ⟨hm.le, hm.none, hm.opsLt, hm.callsLt⟩

/-! ### At least once, and with success -/

structure Flag (m : Mem) : Prop where
  done : ∀ a h, (a, Res.request h true) ∈ m.trace → ForBytes a → (∃ op ∈ m.ops, op.handle = h) ∨ ∃ x, (h, x) ∈ m.calls
  slots : ∀ op ∈ m.ops, op.data = none → ∀ newer older reqs ok, m.trace = newer ++ (.read reqs, .request op.handle ok) :: older →
    ∃ id off len, reqs[op.slot]? = some (id, off, len) ∧ op.pos + op.len ≤ len
  flag : ∀ h, (h, false) ∈ m.calls → ∀ newer older reqs, m.trace = newer ++ (.read reqs, .request h true) :: older →
    ∃ (k id off len i : Nat), reqs[k]? = some (id, off, len) ∧ i < len ∧ content id (off + i) older = none

theorem split_new {e : Api × Res} {t newer older : List (Api × Res)} {x : Api × Res} (h : e :: t = newer ++ x :: older) :
    e = x ∧ t = older ∨ ∃ newer', newer = e :: newer' ∧ t = newer' ++ x :: older := by
  cases newer with
  | nil =>
    rw [List.nil_append] at h
    injection h with h1 h2
    exact .inl ⟨h1, h2⟩
  | cons y newer =>
    rw [List.cons_append] at h
    injection h with h1 h2
    exact .inr ⟨newer, by rw [h1], h2⟩

theorem flag_call {m : Mem} (hs : Safe m) (hd : Data m) (hf : Flag m) {a : Api} (hsm : Small a) : Flag (m.call a) := by
  obtain ⟨new, n1, n2, n3⟩ := call_new m a
  obtain ⟨_, _, _, k4, res, k5, k6⟩ := call_keeps m a
  constructor
  · intro a' h hm hs1
    rw [k4]
    rw [k5] at hm
    rcases List.mem_cons.1 hm with hm | hm
    · injection hm with e1 e2
      subst e1
      left
      cases a' with
      | write reqs =>
        obtain ⟨new', f1, f2, f3, f4⟩ := requests_add m m.nextHandle 0 (reqs.map ofWrite)
        have hres : Res.request m.nextHandle (m.requests m.nextHandle 0 (reqs.map ofWrite)).1 = res := by
          have : (m.call (.write reqs)).trace = (.write reqs, Res.request m.nextHandle (m.requests m.nextHandle 0 (reqs.map ofWrite)).1) :: m.trace := rfl
          rw [k5] at this
          simp only [List.cons.injEq, Prod.mk.injEq, true_and, and_true] at this
          exact this.symm
        rw [← e2] at hres
        injection hres with hh hok
        obtain ⟨g1, g2⟩ := f4 hok
        obtain ⟨r, hr, hne⟩ := hs1
        obtain ⟨k, hk⟩ := List.mem_iff_getElem?.1 hr
        obtain ⟨b, b1, b2⟩ := ok_small hs (r := ofWrite r) (g1 _ (List.mem_map_of_mem hr)) (hsm r hr)
        obtain ⟨op, hop, _⟩ := opsOf_cover (h := m.nextHandle) (slot := 0 + k) (r := ofWrite r) (hsm r hr) b1 b2 (i := 0) (List.length_pos_iff.2 hne)
        have hmem : op ∈ new' := by
          rw [g2]
          exact allOps_mem (k := k) (by rw [List.getElem?_map, hk]; rfl) hop
        refine ⟨op, ?_, ?_⟩
        · show op ∈ (m.requests m.nextHandle 0 (reqs.map ofWrite)).2.ops
          rw [f1]
          exact List.mem_append_right _ hmem
        · obtain ⟨_, _, _, g, _⟩ := mem_opsOf hop
          rw [g, hh]
      | read reqs =>
        obtain ⟨new', f1, f2, f3, f4⟩ := requests_add m m.nextHandle 0 (reqs.map ofRead)
        have hres : Res.request m.nextHandle (m.requests m.nextHandle 0 (reqs.map ofRead)).1 = res := by
          have : (m.call (.read reqs)).trace = (.read reqs, Res.request m.nextHandle (m.requests m.nextHandle 0 (reqs.map ofRead)).1) :: m.trace := rfl
          rw [k5] at this
          simp only [List.cons.injEq, Prod.mk.injEq, true_and, and_true] at this
          exact this.symm
        rw [← e2] at hres
        injection hres with hh hok
        obtain ⟨g1, g2⟩ := f4 hok
        obtain ⟨r, hr, hne⟩ := hs1
        obtain ⟨k, hk⟩ := List.mem_iff_getElem?.1 hr
        obtain ⟨b, b1, b2⟩ := ok_small hs (r := ofRead r) (g1 _ (List.mem_map_of_mem hr)) (hsm r hr)
        obtain ⟨op, hop, _⟩ := opsOf_cover (h := m.nextHandle) (slot := 0 + k) (r := ofRead r) (hsm r hr) b1 b2 (i := 0) (Nat.pos_of_ne_zero hne)
        have hmem : op ∈ new' := by
          rw [g2]
          exact allOps_mem (k := k) (by rw [List.getElem?_map, hk]; rfl) hop
        refine ⟨op, ?_, ?_⟩
        · show op ∈ (m.requests m.nextHandle 0 (reqs.map ofRead)).2.ops
          rw [f1]
          exact List.mem_append_right _ hmem
        · obtain ⟨_, _, _, g, _⟩ := mem_opsOf hop
          rw [g, hh]
      | alloc _ _ => exact hs1.elim
      | resize _ _ _ => exact hs1.elim
      | delete _ => exact hs1.elim
    · rcases hf.done a' h hm hs1 with ⟨op, hop, e⟩ | hx
      · exact .inl ⟨op, by rw [n1]; exact List.mem_append_left _ hop, e⟩
      · exact .inr hx
  · intro op hop hn newer older reqs ok ht
    rw [k5] at ht
    rw [n1] at hop
    rcases List.mem_append.1 hop with hop | hop
    · rcases split_new ht with ⟨e1, _⟩ | ⟨newer', _, e2⟩
      · injection e1 with _ e1
        have := k6 _ _ e1
        have := hd.opsLt op hop
        omega
      · exact hf.slots op hop hn newer' older reqs ok e2
    · rcases split_new ht with ⟨e1, _⟩ | ⟨newer', _, e2⟩
      · injection e1 with e0 e1
        subst e0
        obtain ⟨new', f1, f2, f3, f4⟩ := requests_add m m.nextHandle 0 (reqs.map ofRead)
        have hnn : new = new' := by
          have : (m.call (.read reqs)).ops = m.ops ++ new' := by
            show (m.requests m.nextHandle 0 (reqs.map ofRead)).2.ops = _
            rw [f1]
            rfl
          rw [n1] at this
          exact List.append_cancel_left this
        rw [hnn] at hop
        obtain ⟨k, r, g1, g2⟩ := mem_allOps (f2.subset hop)
        rw [List.getElem?_map] at g1
        obtain ⟨⟨id, off, len⟩, hr, rfl⟩ := Option.map_eq_some_iff.1 g1
        obtain ⟨q1, q2, q3, _⟩ := opsOf_at (r := ofRead (id, off, len)) (hsm _ (List.mem_of_getElem? hr)) g2
        exact ⟨id, off, len, by rw [q2, Nat.zero_add]; exact hr, q3⟩
      · have h1 := hd.traceLt (.read reqs) op.handle ok (by rw [e2]; simp)
        have h2 := (n3 op hop).1
        omega
  · intro h hx newer older reqs ht
    rw [k4] at hx
    rw [k5] at ht
    rcases split_new ht with ⟨e1, _⟩ | ⟨newer', _, e2⟩
    · injection e1 with _ e1
      have := k6 _ _ e1
      have := hd.callsLt h false hx
      omega
    · exact hf.flag h hx newer' older reqs e2

theorem flag_calls {m : Mem} (hs : Safe m) (hd : Data m) (hf : Flag m) {as : List Api} (hsm : ∀ a ∈ as, Small a) : Flag (as.foldl Mem.call m) := by
  induction as generalizing m with
  | nil => exact hf
  | cons a as ih =>
    exact ih (safe_call hs a) (data_call hs hd (hsm a List.mem_cons_self)) (flag_call hs hd hf (hsm a List.mem_cons_self)) fun x hx => hsm x (List.mem_cons_of_mem _ hx)

/-- The operation leaves its queue. -/
theorem flag_finish {m : Mem} (hs : Safe m) (hf : Flag m) {op : Op} {pre post : List Op} (ho : m.ops = pre ++ op :: post)
    (he : m.ops.eraseP (fun o => decide (o.file = op.file)) = pre ++ post)
    (hc : (∃ x, (op.handle, x) ∈ m.calls) ∨ ∃ o ∈ pre ++ post, o.handle = op.handle) : Flag (m.finish op) := by
  obtain ⟨f1, f2, f3, f4⟩ := finish_keeps hs (op := op) (by rw [ho]; simp)
  rw [he] at f1
  constructor
  · intro a h hm hs1
    rw [f4] at hm
    rw [f1, f2]
    rcases hf.done a h hm hs1 with ⟨o, hx, e⟩ | hx
    · rw [ho] at hx
      have : o = op ∨ o ∈ pre ++ post := by
        simp only [List.mem_append, List.mem_cons] at hx ⊢
        tauto
      rcases this with rfl | hx
      · rcases hc with hc | ⟨o', ho', e'⟩
        · rw [e] at hc
          exact .inr hc
        · exact .inl ⟨o', ho', by rw [e', e]⟩
      · exact .inl ⟨o, hx, e⟩
    · exact .inr hx
  · intro o hx
    rw [f4]
    refine hf.slots o ?_
    rw [f1] at hx
    rw [ho]
    rcases List.mem_append.1 hx with hx | hx <;> simp [hx]
  · rw [f2, f4]
    exact hf.flag

theorem flag_complete {m : Mem} (hs : Safe m) (hd : Data m) (hf : Flag m) (file : Nat) {inner : List Api} (hsm : ∀ a ∈ inner, Small a) : Flag (m.complete file false inner) := by
  unfold Mem.complete
  split
  · exact hf
  · rename_i op hop
    obtain ⟨hfile, pre, post, h1, hpre, h3⟩ := find_split hop
    have hpre : ∀ o ∈ pre, o.file ≠ op.file := by rw [hfile]; exact hpre
    have hmem : op ∈ m.ops := by rw [h1]; simp
    obtain ⟨hio, hbu⟩ := data_io hd h1 hpre
    simp only [Bool.not_false, Bool.or_true, Bool.and_true, Bool.true_and, Bool.false_eq_true, if_false]
    have hlt := hd.opsLt op hmem
    split_ifs with hlast
    · generalize hm1 : ({ m with disk := op.apply m.disk, buffer := op.fetch m.disk m.buffer, calls := m.calls ++ [(op.handle, !(op.data.isNone && decide (op.len ≠ 0) && decide ((m.disk file).size < op.offset + op.len)))] } : Mem) = m1
      have hlast : m.ops.countP (fun o => decide (o.handle = op.handle)) = 1 := by simpa using hlast
      have hd1 : Data m1 := by
        subst hm1
        refine ⟨hio.spec, hio.reads, hio.buf, ?_, hio.opsLt, ?_, hio.traceLt⟩
        · intro h x hx k i v hv
          rcases List.mem_append.1 hx with hx | hx
          · exact hio.called h x hx k i v hv
          · simp only [List.mem_singleton, Prod.mk.injEq] at hx
            rcases hio.buf h k i v hv with hh | ⟨r, hr, r1, r2, r3, r4, r5⟩
            · exact hh
            · have hro := count_one hlast hr hmem (by rw [r2, hx.1]) rfl
              subst hro
              have := hbu r1 (i - r.pos) (by omega) v
              rw [show r.pos + (i - r.pos) = i by omega, r2, r3] at this
              exact this hv
        · intro h x hx
          rcases List.mem_append.1 hx with hx | hx
          · exact hd.callsLt h x hx
          · simp only [List.mem_singleton, Prod.mk.injEq] at hx
            rw [hx.1]
            exact hlt
      have hs1 : Safe m1 := by
        subst hm1
        exact safe_io hs _ _ _
      have hf1 : Flag m1 := by
        subst hm1
        refine ⟨fun a h hm hs1 => ?_, hf.slots, fun h hx newer older reqs ht => ?_⟩
        · rcases hf.done a h hm hs1 with hh | ⟨x, hx⟩
          · exact .inl hh
          · exact .inr ⟨x, List.mem_append_left _ hx⟩
        · rcases List.mem_append.1 hx with hx | hx
          · exact hf.flag h hx newer older reqs ht
          · simp only [List.mem_singleton, Prod.mk.injEq, Bool.false_eq, Bool.not_eq_false', Bool.and_eq_true, decide_eq_true_eq, Option.isNone_iff_eq_none] at hx
            obtain ⟨rfl, ⟨hn, hl0⟩, hshort⟩ := hx
            obtain ⟨id, off, len, g1, g2⟩ := hf.slots op hmem hn newer older reqs true ht
            refine ⟨op.slot, id, off, len, op.pos + (op.len - 1), g1, by omega, ?_⟩
            cases hc : content id (off + (op.pos + (op.len - 1))) older with
            | none => rfl
            | some v =>
              have := hd.reads pre op post h1 hn (op.len - 1) (by omega) v ⟨newer, older, reqs, id, off, len, ht, g1, by omega, hc⟩
              rw [after_other hpre, hfile] at this
              have := this.1
              omega
      obtain ⟨new, hn, _, hcalls, _⟩ := calls_new m1 inner
      have hops : m1.ops = m.ops := by subst hm1; rfl
      rw [hops] at hn
      refine flag_finish (safe_calls hs1 inner) (flag_calls hs1 hd1 hf1 hsm) (pre := pre) (post := post ++ new) ?_ ?_ (.inl ?_)
      · rw [hn, h1]
        simp
      · rw [hn, hfile, h3 new]
        simp
      · rw [hcalls]
        subst hm1
        exact ⟨_, List.mem_append_right _ (List.mem_singleton.2 rfl)⟩
    · refine flag_finish (safe_io hs (op.apply m.disk) (op.fetch m.disk m.buffer) m.calls) (op := op) (pre := pre) (post := post) ⟨hf.done, hf.slots, hf.flag⟩ h1 ?_ (.inr ?_)
      · have := h3 []
        rw [List.append_nil, List.append_nil, ← hfile] at this
        exact this
      · have hlast : m.ops.countP (fun o => decide (o.handle = op.handle)) ≠ 1 := by simpa using hlast
        have hc : m.ops.countP (fun o => o.handle = op.handle) = (pre ++ post).countP (fun o => o.handle = op.handle) + 1 := by
          rw [h1, List.countP_append, List.countP_append, List.countP_cons]
          simp
          omega
        have : 0 < (pre ++ post).countP (fun o => decide (o.handle = op.handle)) := by omega
        obtain ⟨o, ho, e⟩ := List.countP_pos_iff.1 this
        exact ⟨o, ho, by simpa using e⟩

theorem flag_run {m : Mem} (hs : Safe m) (hd : Data m) (hf : Flag m) {es : List Ev} (hne : NoErrors es) (hsm : AllSmall es) : Flag (m.run es) := by
  induction es generalizing m with
  | nil => exact hf
  | cons e es ih =>
    refine ih (safe_step hs e) (data_step hs hd e (hsm e List.mem_cons_self) (hne e List.mem_cons_self)) ?_ (fun x hx => hne x (List.mem_cons_of_mem _ hx))
      (fun x hx => hsm x (List.mem_cons_of_mem _ hx))
    have h1 := hsm e List.mem_cons_self
    have h2 := hne e List.mem_cons_self
    cases e with
    | call a => exact flag_call hs hd hf h1
    | complete f er inner =>
      have := h2 f er inner rfl
      subst this
      exact flag_complete hs hd hf f h1
    | force =>
      unfold Mem.step Mem.force
      dsimp only
      split
      · exact hf
      · exact ⟨hf.done, hf.slots, hf.flag⟩
    | timer => exact ⟨hf.done, hf.slots, hf.flag⟩

/-! ### Deleted blocks -/

/-- What calls do to blocks. -/
theorem call_trans {m : Mem} (hs : Safe m) (a : Api) : m.nextBlock ≤ (m.call a).nextBlock ∧ (m.call a).posted = m.posted ∧
    ∀ id b', (m.call a).blocks id = some b' → (m.nextBlock ≤ id ∧ b'.marked = false) ∨
      ∃ b, m.blocks id = some b ∧ b.refs ≤ b'.refs ∧ (b.marked = true → b'.marked = true) ∧ (b'.marked = true → b.marked = true ∨ b.refs ≠ 0) := by
  have hrb : ∀ (m : Mem) id size d b, m.blocks id = some b → (m.resizeBlock id size d b).2.nextBlock = m.nextBlock ∧ (m.resizeBlock id size d b).2.posted = m.posted ∧
      ∀ i b', (m.resizeBlock id size d b).2.blocks i = some b' → ∃ c, m.blocks i = some c ∧ c.refs = b'.refs ∧ c.marked = b'.marked := by
    intro m id size d b hb
    have hsm := setup_same m d
    rcases resizeBlock_cases m id size d b with ⟨_, e⟩ | ⟨c, _, hc, e⟩
    · rw [e]
      exact ⟨hsm.nextBlock, hsm.posted, fun i b' h => ⟨b', by rw [← hsm.blocks]; exact h, rfl, rfl⟩⟩
    · rw [e]
      refine ⟨hsm.nextBlock, hsm.posted, fun i b' h => ?_⟩
      dsimp only at h
      split_ifs at h with hi
      · refine ⟨b, by rw [hi, hb], ?_⟩
        cases h
        unfold Block.grow
        split_ifs <;> exact ⟨rfl, rfl⟩
      · exact ⟨b', by rw [← hsm.blocks]; exact h, rfl, rfl⟩
  have hreq : ∀ h rs, (m.requests h 0 rs).2.nextBlock = m.nextBlock ∧ (m.requests h 0 rs).2.posted = m.posted ∧
      ∀ i b', (m.requests h 0 rs).2.blocks i = some b' → ∃ c, m.blocks i = some c ∧ c.refs ≤ b'.refs ∧ c.marked = b'.marked := by
    intro h rs
    obtain ⟨new, e, _⟩ := requests_add m h 0 rs
    rw [e]
    refine ⟨rfl, rfl, fun i b' hb => ?_⟩
    obtain ⟨c, c1, rfl⟩ := Option.map_eq_some_iff.1 hb
    exact ⟨c, c1, Nat.le_add_right _ _, rfl⟩
  have hsame : ∀ {i : Nat} {b' : Block}, (∃ c, m.blocks i = some c ∧ c.refs ≤ b'.refs ∧ c.marked = b'.marked) →
      ∃ b, m.blocks i = some b ∧ b.refs ≤ b'.refs ∧ (b.marked = true → b'.marked = true) ∧ (b'.marked = true → b.marked = true ∨ b.refs ≠ 0) := by
    rintro i b' ⟨c, c1, c2, c3⟩
    exact ⟨c, c1, c2, fun h => by rw [← c3, h], fun h => .inl (by rw [c3, h])⟩
  cases a with
  | alloc size d =>
    obtain ⟨h1, h2, h3⟩ := hrb ({ m with nextBlock := m.nextBlock + 1, blocks := fun i => if i = m.nextBlock then some ⟨[], 0, 0, false⟩ else m.blocks i } : Mem)
      m.nextBlock size d ⟨[], 0, 0, false⟩ (by simp)
    refine ⟨by rw [show (m.call (.alloc size d)).nextBlock = m.nextBlock + 1 from h1]; omega, h2, fun i b' hb' => ?_⟩
    obtain ⟨c, c1, c2, c3⟩ := h3 i b' hb'
    dsimp only at c1
    split_ifs at c1 with hi
    · left
      cases c1
      exact ⟨by omega, c3.symm⟩
    · exact .inr (hsame ⟨c, c1, Nat.le_of_eq c2, c3⟩)
  | resize id size d =>
    unfold Mem.call Mem.resize
    dsimp only
    cases hb : m.blocks id with
    | none => exact ⟨Nat.le_refl _, rfl, fun i b' hb' => .inr (hsame ⟨b', hb', Nat.le_refl _, rfl⟩)⟩
    | some b =>
      obtain ⟨h1, h2, h3⟩ := hrb m id size d b hb
      refine ⟨Nat.le_of_eq h1.symm, h2, fun i b' hb' => .inr (hsame ?_)⟩
      obtain ⟨c, c1, c2, c3⟩ := h3 i b' hb'
      exact ⟨c, c1, Nat.le_of_eq c2, c3⟩
  | delete id =>
    unfold Mem.call Mem.delete
    dsimp only
    split
    · exact ⟨Nat.le_refl _, rfl, fun i b' hb' => .inr (hsame ⟨b', hb', Nat.le_refl _, rfl⟩)⟩
    · rename_i b hb
      split_ifs with c1 c2
      · exact ⟨Nat.le_refl _, rfl, fun i b' hb' => .inr (hsame ⟨b', hb', Nat.le_refl _, rfl⟩)⟩
      · refine ⟨Nat.le_refl _, rfl, fun i b' hb' => .inr ?_⟩
        dsimp only at hb'
        split_ifs at hb' with hi
        · cases hb'
          exact ⟨b, by rw [hi, hb], Nat.le_refl _, fun _ => rfl, fun _ => .inr c1⟩
        · exact hsame ⟨b', hb', Nat.le_refl _, rfl⟩
      · refine ⟨Nat.le_refl _, rfl, fun i b' hb' => .inr ?_⟩
        unfold Mem.erase at hb'
        dsimp only at hb'
        split_ifs at hb' with hi
        exact hsame ⟨b', hb', Nat.le_refl _, rfl⟩
  | write reqs =>
    obtain ⟨h1, h2, h3⟩ := hreq m.nextHandle (reqs.map ofWrite)
    exact ⟨Nat.le_of_eq h1.symm, h2, fun i b' hb' => .inr (hsame (h3 i b' hb'))⟩
  | read reqs =>
    obtain ⟨h1, h2, h3⟩ := hreq m.nextHandle (reqs.map ofRead)
    exact ⟨Nat.le_of_eq h1.symm, h2, fun i b' hb' => .inr (hsame (h3 i b' hb'))⟩

/-- Blocks that are to go are waited for; a block that was deleted is not used. -/
structure Gone (m : Mem) (dead : List Nat) : Prop where
  marked : ∀ id b, m.blocks id = some b → b.marked = true → b.refs ≠ 0 ∨ id ∈ m.posted
  dead : ∀ id ∈ dead, id < m.nextBlock ∧ ∀ b, m.blocks id = some b → b.marked = true

theorem gone_call {m : Mem} {dead : List Nat} (hs : Safe m) (hg : Gone m dead) (a : Api) : Gone (m.call a) dead := by
  obtain ⟨h1, h2, h3⟩ := call_trans hs a
  constructor
  · intro id b hb hm
    rw [h2]
    rcases h3 id b hb with ⟨_, e⟩ | ⟨c, c1, c2, c3, c4⟩
    · rw [e] at hm
      cases hm
    · rcases c4 hm with c5 | c5
      · rcases hg.marked id c c1 c5 with h | h
        · exact .inl (by omega)
        · exact .inr h
      · exact .inl (by omega)
  · intro id hid
    obtain ⟨g1, g2⟩ := hg.dead id hid
    refine ⟨by omega, fun b hb => ?_⟩
    rcases h3 id b hb with ⟨e, _⟩ | ⟨c, c1, c2, c3, c4⟩
    · omega
    · exact c3 (g2 c c1)

theorem gone_calls {m : Mem} {dead : List Nat} (hs : Safe m) (hg : Gone m dead) (as : List Api) : Gone (as.foldl Mem.call m) dead := by
  induction as generalizing m with
  | nil => exact hg
  | cons a as ih => exact ih (safe_call hs a) (gone_call hs hg a)

theorem gone_finish {m : Mem} {dead : List Nat} (hg : Gone m dead) (op : Op) : Gone (m.finish op) dead := by
  unfold Mem.finish
  split
  · exact ⟨hg.marked, hg.dead⟩
  · rename_i b hb
    constructor
    · intro id x hx hm
      dsimp only at hx ⊢
      split_ifs at hx with hi
      · cases hx
        dsimp only at hm ⊢
        by_cases hz : b.refs - 1 = 0
        · right
          rw [if_pos ⟨hm, hz⟩, hi]
          simp
        · exact .inl hz
      · rcases hg.marked id x hx hm with h | h
        · exact .inl h
        · right
          split_ifs
          · exact List.mem_append_left _ h
          · exact h
    · intro id hid
      obtain ⟨g1, g2⟩ := hg.dead id hid
      refine ⟨g1, fun x hx => ?_⟩
      dsimp only at hx
      split_ifs at hx with hi
      · cases hx
        exact g2 b (by rw [hi, hb])
      · exact g2 x hx

theorem gone_step {m : Mem} {dead : List Nat} (hs : Safe m) (hg : Gone m dead) (e : Ev) : Gone (m.step e) dead := by
  cases e with
  | call a => exact gone_call hs hg a
  | complete file error inner =>
    unfold Mem.step Mem.complete
    dsimp only
    split
    · exact hg
    · rename_i op hop
      apply gone_finish
      split_ifs
      · refine gone_calls ?_ ?_ _
        · exact safe_io hs _ _ _
        · exact ⟨hg.marked, hg.dead⟩
      · refine gone_calls ?_ ?_ _
        · exact safe_io hs _ _ _
        · exact ⟨hg.marked, hg.dead⟩
      · exact hg
      · exact ⟨hg.marked, hg.dead⟩
  | force =>
    unfold Mem.step Mem.force
    dsimp only
    split
    · exact hg
    · rename_i x rest hp
      constructor
      · intro id b hb hm
        unfold Mem.erase at hb
        dsimp only at hb ⊢
        split_ifs at hb with hi
        rcases hg.marked id b hb hm with h | h
        · exact .inl h
        · rw [hp] at h
          rcases List.mem_cons.1 h with h | h
          · exact absurd h hi
          · exact .inr h
      · intro id hid
        obtain ⟨g1, g2⟩ := hg.dead id hid
        refine ⟨g1, fun b hb => ?_⟩
        unfold Mem.erase at hb
        dsimp only at hb
        split_ifs at hb with hi
        exact g2 b hb
  | timer => exact ⟨hg.marked, hg.dead⟩

theorem gone_run {m : Mem} {dead : List Nat} (hs : Safe m) (hg : Gone m dead) (es : List Ev) : Gone (m.run es) dead := by
  induction es generalizing m with
  | nil => exact hg
  | cons e es ih => exact ih (safe_step hs e) (gone_step hs hg e)

theorem gone_start : Gone Mem.start [] := by
  constructor <;> simp [Mem.start]

theorem once_start : Once Mem.start := by
  constructor <;> simp [Mem.start]

theorem flag_start : Flag Mem.start := by
  constructor <;> simp [Mem.start]

end Hdtn.FileMem
