import Verif.FileMem.Lemmas

/-!
What is true of blocks and queues at all times, with errors or without.
-/

namespace Hdtn.FileMem

open Hdtn.FileMem.Spec

structure Safe (m : Mem) : Prop where
  live : ∀ op ∈ m.ops, ∃ b, m.blocks op.block = some b ∧ op.file ∈ b.frags.map (·.file)
  refs : ∀ id b, m.blocks id = some b → b.refs = m.ops.countP (fun o => o.block = id)
  size : ∀ id b, m.blocks id = some b → b.size = total b.frags ∧ b.size < U64
  inj : ∀ id b o id' b' o' p, m.blocks id = some b → m.blocks id' = some b' → loc b.frags o = some p → loc b'.frags o' = some p → id = id' ∧ o = o'
  below : ∀ id b o f a, m.blocks id = some b → loc b.frags o = some (f, a) → f < m.nextFile ∧ (m.current = some f → a < m.nextOffset)
  cur : ∀ c, m.current = some c → c < m.nextFile
  fresh : ∀ id, m.nextBlock ≤ id → m.blocks id = none
  posted : ∀ id ∈ m.posted, id < m.nextBlock ∧ ∀ b, m.blocks id = some b → b.marked = true ∧ b.refs = 0
  fault : m.fault = false

theorem safe_start : Safe Mem.start := by
  constructor <;> simp [Mem.start]

theorem safe_add {m : Mem} (h : Safe m) {new : List Op}
    (hn : ∀ op ∈ new, ∃ b, m.blocks op.block = some b ∧ b.marked = false ∧ op.file ∈ b.frags.map (·.file)) : Safe (m.add new) := by
  have hb : ∀ id b, (m.add new).blocks id = some b → ∃ b', m.blocks id = some b' ∧ b = { b' with refs := b'.refs + new.countP (fun o => o.block = id) } := by
    intro id b hb
    obtain ⟨b', hb', e⟩ := Option.map_eq_some_iff.1 hb
    exact ⟨b', hb', e.symm⟩
  constructor
  · intro op hop
    rcases List.mem_append.1 hop with hop | hop
    · obtain ⟨b, h1, h2⟩ := h.live op hop
      exact ⟨{ b with refs := b.refs + new.countP (fun o => o.block = op.block) }, by unfold Mem.add; simp [h1], h2⟩
    · obtain ⟨b, h1, _, h2⟩ := hn op hop
      exact ⟨{ b with refs := b.refs + new.countP (fun o => o.block = op.block) }, by unfold Mem.add; simp [h1], h2⟩
  · intro id b hb1
    obtain ⟨b', h1, rfl⟩ := hb id b hb1
    show b'.refs + _ = (m.ops ++ new).countP _
    rw [List.countP_append, h.refs id b' h1]
  · intro id b hb1
    obtain ⟨b', h1, rfl⟩ := hb id b hb1
    exact h.size id b' h1
  · intro id b o id' b' o' p h1 h2 h3 h4
    obtain ⟨c, g1, rfl⟩ := hb id b h1
    obtain ⟨c', g2, rfl⟩ := hb id' b' h2
    exact h.inj id c o id' c' o' p g1 g2 h3 h4
  · intro id b o f a h1 h2
    obtain ⟨c, g1, rfl⟩ := hb id b h1
    exact h.below id c o f a g1 h2
  · exact h.cur
  · intro id hid
    show (m.blocks id).map _ = none
    rw [h.fresh id hid]
    rfl
  · intro id hid
    obtain ⟨h1, h2⟩ := h.posted id hid
    refine ⟨h1, fun b hb1 => ?_⟩
    obtain ⟨c, g1, rfl⟩ := hb id b hb1
    obtain ⟨e1, e2⟩ := h2 c g1
    refine ⟨e1, ?_⟩
    have : new.countP (fun o => o.block = id) = 0 := by
      rw [List.countP_eq_zero]
      intro op hop hc
      have hc : op.block = id := by simpa using hc
      obtain ⟨d, d1, d2, _⟩ := hn op hop
      rw [hc, g1] at d1
      cases d1
      rw [e1] at d2
      cases d2
    show c.refs + _ = 0
    rw [this, e2]
  · exact h.fault

theorem safe_requests {m : Mem} (h : Safe m) (hd slot : Nat) (rs : List (Nat × Nat × Nat × Option Bytes)) : Safe (m.requests hd slot rs).2 := by
  obtain ⟨new, e1, e2, e3, _⟩ := requests_add m hd slot rs
  rw [e1]
  refine safe_add h fun op hop => ?_
  obtain ⟨b, hb, hm⟩ := e3 op hop
  obtain ⟨k, r, _, h2⟩ := mem_allOps (e2.subset hop)
  obtain ⟨b', g1, g2, _, _, g3⟩ := mem_opsOf h2
  rw [← g2, hb] at g1
  cases g1
  exact ⟨b, hb, hm, g3⟩

/-- What the creation of a file leaves as it is. -/
structure Same (m m' : Mem) : Prop where
  blocks : m'.blocks = m.blocks
  ops : m'.ops = m.ops
  disk : m'.disk = m.disk
  posted : m'.posted = m.posted
  buffer : m'.buffer = m.buffer
  calls : m'.calls = m.calls
  trace : m'.trace = m.trace
  nextBlock : m'.nextBlock = m.nextBlock
  nextHandle : m'.nextHandle = m.nextHandle
  fault : m'.fault = m.fault

theorem setup_same (m : Mem) (d : Disk) : Same m (m.setup d).2 := by
  unfold Mem.setup
  split
  · exact ⟨rfl, rfl, rfl, rfl, rfl, rfl, rfl, rfl, rfl, rfl⟩
  · split <;> exact ⟨rfl, rfl, rfl, rfl, rfl, rfl, rfl, rfl, rfl, rfl⟩

theorem safe_setup {m : Mem} (h : Safe m) (d : Disk) : Safe (m.setup d).2 := by
  have hs := setup_same m d
  have hx : (∀ id b o f a, m.blocks id = some b → loc b.frags o = some (f, a) →
      f < (m.setup d).2.nextFile ∧ ((m.setup d).2.current = some f → a < (m.setup d).2.nextOffset)) ∧
      ∀ c, (m.setup d).2.current = some c → c < (m.setup d).2.nextFile := by
    unfold Mem.setup
    cases hc : m.current with
    | some c =>
      dsimp only
      refine ⟨h.below, h.cur⟩
    | none =>
      have hlt : ∀ id b o f a, m.blocks id = some b → loc b.frags o = some (f, a) → f < m.nextFile := fun id b o f a h1 h2 => (h.below id b o f a h1 h2).1
      cases d with
      | «exists» =>
        dsimp only
        exact ⟨fun id b o f a h1 h2 => ⟨by have := hlt id b o f a h1 h2; omega, fun e => by cases e⟩, fun c e => by cases e⟩
      | closed | fine =>
        dsimp only
        refine ⟨fun id b o f a h1 h2 => ⟨by have := hlt id b o f a h1 h2; omega, fun e => ?_⟩, fun c e => ?_⟩
        · have := hlt id b o f a h1 h2
          cases e
          omega
        · cases e
          omega
  constructor
  · rw [hs.ops, hs.blocks]; exact h.live
  · rw [hs.ops, hs.blocks]; exact h.refs
  · rw [hs.blocks]; exact h.size
  · rw [hs.blocks]; exact h.inj
  · rw [hs.blocks]; exact hx.1
  · exact hx.2
  · rw [hs.blocks, hs.nextBlock]; exact h.fresh
  · rw [hs.blocks, hs.nextBlock, hs.posted]; exact h.posted
  · rw [hs.fault]; exact h.fault

theorem ceil_lt (n : Nat) : ceil n < U64 := by
  unfold ceil
  exact Nat.mod_lt _ (show 0 < 2 ^ 64 by decide)

/-- What a block becomes. -/
theorem resizeBlock_cases (m : Mem) (id size : Nat) (d : Disk) (b : Block) :
    ((m.setup d).1 = false ∨ (m.setup d).2.current = none) ∧ m.resizeBlock id size d b = (0, (m.setup d).2) ∨
    ∃ c, (m.setup d).1 = true ∧ (m.setup d).2.current = some c ∧ m.resizeBlock id size d b =
      (ceil size, { (m.setup d).2 with
        blocks := fun i => if i = id then some (b.grow c (m.setup d).2.nextOffset (ceil size)).2 else (m.setup d).2.blocks i
        nextOffset := (m.setup d).2.nextOffset + (b.grow c (m.setup d).2.nextOffset (ceil size)).1 }) := by
  unfold Mem.resizeBlock
  cases hs : m.setup d with
  | mk ok m' =>
    cases ok with
    | false => exact .inl ⟨.inl rfl, rfl⟩
    | true =>
      dsimp only
      cases hc : m'.current with
      | none => exact .inl ⟨.inr rfl, rfl⟩
      | some c => exact .inr ⟨c, rfl, rfl, rfl⟩

theorem safe_resizeBlock {m : Mem} (h : Safe m) {id : Nat} (size : Nat) (d : Disk) {b : Block} (hb : m.blocks id = some b) :
    Safe (m.resizeBlock id size d b).2 := by
  have hs := safe_setup h d
  have hsame := setup_same m d
  rcases resizeBlock_cases m id size d b with ⟨_, e⟩ | ⟨c, hok, hc, e⟩
  · rw [e]
    exact hs
  rw [e]
  have hb' : (m.setup d).2.blocks id = some b := by rw [hsame.blocks, hb]
  generalize (m.setup d).2 = m' at *
  clear hsame hok e h hb m
  unfold Block.grow
  by_cases hle : ceil size ≤ b.size
  · rw [if_pos hle]
    dsimp only
    have : (fun i => if i = id then some b else m'.blocks i) = m'.blocks := by
      funext i
      split_ifs with hi
      · rw [hi, hb']
      · rfl
    rw [this]
    exact hs
  rw [if_neg hle]
  dsimp only
  have hsz := (hs.size id b hb').1
  have hcl := ceil_lt size
  have hg : ∀ i x, (if i = id then some ({ b with size := ceil size, frags := b.frags ++ [⟨c, m'.nextOffset, ceil size - b.size⟩] } : Block) else m'.blocks i) = some x →
      ∃ y, m'.blocks i = some y ∧ x.refs = y.refs ∧ x.marked = y.marked ∧ x.size = total x.frags ∧ x.size < U64 ∧
        (∀ f ∈ y.frags.map (·.file), f ∈ x.frags.map (·.file)) ∧
        ∀ o p, loc x.frags o = some p → loc y.frags o = some p ∨ i = id ∧ p = (c, m'.nextOffset + (o - b.size)) ∧ b.size ≤ o ∧ o < ceil size := by
    intro i x hx
    by_cases hi : i = id
    · rw [if_pos hi] at hx
      cases hx
      refine ⟨b, by rw [hi, hb'], rfl, rfl, ?_, hcl, fun f hf => by simp only [List.map_append, List.mem_append]; exact .inl hf, fun o p hp => ?_⟩
      · show ceil size = total _
        unfold total at *
        simp only [List.map_append, List.sum_append, List.map_cons, List.map_nil, List.sum_cons, List.sum_nil]
        omega
      · rw [loc_append] at hp
        split_ifs at hp with hlt
        · exact .inl hp
        · unfold loc at hp
          dsimp only at hp
          split_ifs at hp with h2
          · cases hp
            exact .inr ⟨hi, by rw [hsz], by omega, by omega⟩
          · simp [loc] at hp
    · rw [if_neg hi] at hx
      exact ⟨x, hx, rfl, rfl, (hs.size i x hx).1, (hs.size i x hx).2, fun f hf => hf, fun o p hp => .inl hp⟩
  constructor
  · intro op hop
    obtain ⟨y, h1, h2⟩ := hs.live op hop
    dsimp only
    by_cases hi : op.block = id
    · rw [if_pos hi]
      rw [hi, hb'] at h1
      cases h1
      exact ⟨_, rfl, by simp only [List.map_append, List.mem_append]; exact .inl h2⟩
    · rw [if_neg hi]
      exact ⟨y, h1, h2⟩
  · intro i x hx
    obtain ⟨y, h1, h2, _⟩ := hg i x hx
    rw [h2]
    exact hs.refs i y h1
  · intro i x hx
    obtain ⟨y, h1, _, _, h3, h4, _⟩ := hg i x hx
    exact ⟨h3, h4⟩
  · intro i x o i' x' o' p h1 h2 h3 h4
    obtain ⟨y, g1, _, _, _, _, _, g2⟩ := hg i x h1
    obtain ⟨y', g1', _, _, _, _, _, g2'⟩ := hg i' x' h2
    rcases g2 o p h3 with g | ⟨e1, e2, e3, e4⟩ <;> rcases g2' o' p h4 with g' | ⟨e1', e2', e3', e4'⟩
    · exact hs.inj i y o i' y' o' p g1 g1' g g'
    · subst e2'
      have := (hs.below i y o _ _ g1 g).2 hc
      omega
    · subst e2
      have := (hs.below i' y' o' _ _ g1' g').2 hc
      omega
    · subst e2
      simp only [Prod.mk.injEq, true_and] at e2'
      exact ⟨by rw [e1, e1'], by omega⟩
  · intro i x o f a h1 h2
    obtain ⟨y, g1, _, _, _, _, _, g2⟩ := hg i x h1
    rcases g2 o _ h2 with g | ⟨e1, e2, e3, e4⟩
    · have := hs.below i y o f a g1 g
      exact ⟨this.1, fun e => by have := this.2 e; show a < m'.nextOffset + _; omega⟩
    · simp only [Prod.mk.injEq] at e2
      refine ⟨by rw [e2.1]; exact hs.cur c hc, fun _ => ?_⟩
      show a < m'.nextOffset + _
      omega
  · exact hs.cur
  · intro i hi
    dsimp only
    rw [if_neg]
    · exact hs.fresh i hi
    · intro e
      have := hs.fresh i hi
      rw [e, hb'] at this
      cases this
  · intro i hi
    obtain ⟨h1, h2⟩ := hs.posted i hi
    refine ⟨h1, fun x hx => ?_⟩
    obtain ⟨y, g1, g2, g3, _⟩ := hg i x hx
    rw [g2, g3]
    exact h2 y g1
  · exact hs.fault

theorem safe_erase {m : Mem} (h : Safe m) {id : Nat} (hid : ∀ b, m.blocks id = some b → b.refs = 0) : Safe (m.erase id) := by
  have hb : ∀ i x, (m.erase id).blocks i = some x → m.blocks i = some x := by
    intro i x hx
    unfold Mem.erase at hx
    dsimp only at hx
    split_ifs at hx
    exact hx
  constructor
  · intro op hop
    obtain ⟨b, h1, h2⟩ := h.live op hop
    refine ⟨b, ?_, h2⟩
    unfold Mem.erase
    dsimp only
    rw [if_neg, h1]
    intro e
    have h3 := hid b (by rw [← e, h1])
    have h4 := h.refs _ b h1
    rw [h3] at h4
    have := List.countP_eq_zero.1 h4.symm op hop
    simp at this
  · exact fun i x hx => h.refs i x (hb i x hx)
  · exact fun i x hx => h.size i x (hb i x hx)
  · exact fun i x o i' x' o' p h1 h2 => h.inj i x o i' x' o' p (hb i x h1) (hb i' x' h2)
  · exact fun i x o f a h1 => h.below i x o f a (hb i x h1)
  · exact h.cur
  · intro i hi
    unfold Mem.erase
    dsimp only
    split_ifs
    · rfl
    · exact h.fresh i hi
  · exact fun i hi => ⟨(h.posted i hi).1, fun x hx => (h.posted i hi).2 x (hb i x hx)⟩
  · exact h.fault

theorem safe_delete {m : Mem} (h : Safe m) (id : Nat) : Safe (m.delete id).2 := by
  unfold Mem.delete
  split
  · exact h
  · rename_i b hb
    split_ifs with h1 h2
    · exact h
    · dsimp only
      have hg : ∀ i x, (if i = id then some ({ b with marked := true } : Block) else m.blocks i) = some x →
          ∃ y, m.blocks i = some y ∧ x.refs = y.refs ∧ (y.marked = true → x.marked = true) ∧ x.size = y.size ∧ x.frags = y.frags := by
        intro i x hx
        split_ifs at hx with hi
        · cases hx
          exact ⟨b, by rw [hi, hb], rfl, fun _ => rfl, rfl, rfl⟩
        · exact ⟨x, hx, rfl, fun e => e, rfl, rfl⟩
      constructor
      · intro op hop
        obtain ⟨y, g1, g2⟩ := h.live op hop
        dsimp only
        by_cases hi : op.block = id
        · rw [if_pos hi]
          rw [hi, hb] at g1
          cases g1
          exact ⟨_, rfl, g2⟩
        · rw [if_neg hi]
          exact ⟨y, g1, g2⟩
      · intro i x hx
        obtain ⟨y, g1, g2, _⟩ := hg i x hx
        rw [g2]
        exact h.refs i y g1
      · intro i x hx
        obtain ⟨y, g1, _, _, g2, g3⟩ := hg i x hx
        rw [g2, g3]
        exact h.size i y g1
      · intro i x o i' x' o' p e1 e2 e3 e4
        obtain ⟨y, g1, _, _, _, g3⟩ := hg i x e1
        obtain ⟨y', g1', _, _, _, g3'⟩ := hg i' x' e2
        rw [g3] at e3
        rw [g3'] at e4
        exact h.inj i y o i' y' o' p g1 g1' e3 e4
      · intro i x o f a e1 e2
        obtain ⟨y, g1, _, _, _, g3⟩ := hg i x e1
        rw [g3] at e2
        exact h.below i y o f a g1 e2
      · exact h.cur
      · intro i hi
        dsimp only
        rw [if_neg]
        · exact h.fresh i hi
        · intro e
          have := h.fresh i hi
          rw [e, hb] at this
          cases this
      · intro i hi
        refine ⟨(h.posted i hi).1, fun x hx => ?_⟩
        obtain ⟨y, g1, g2, g3, _⟩ := hg i x hx
        obtain ⟨k1, k2⟩ := (h.posted i hi).2 y g1
        exact ⟨g3 k1, by rw [g2, k2]⟩
      · exact h.fault
    · exact safe_erase h fun x hx => by rw [hb] at hx; cases hx; simpa using h1

theorem safe_new {m : Mem} (h : Safe m) :
    Safe { m with nextBlock := m.nextBlock + 1, blocks := fun i => if i = m.nextBlock then some ⟨[], 0, 0, false⟩ else m.blocks i } := by
  have hnone := h.fresh _ (Nat.le_refl m.nextBlock)
  have hg : ∀ i x, (if i = m.nextBlock then some (⟨[], 0, 0, false⟩ : Block) else m.blocks i) = some x → i = m.nextBlock ∧ x = ⟨[], 0, 0, false⟩ ∨ m.blocks i = some x := by
    intro i x hx
    split_ifs at hx with hi
    · exact .inl ⟨hi, by cases hx; rfl⟩
    · exact .inr hx
  constructor
  · intro op hop
    obtain ⟨b, h1, h2⟩ := h.live op hop
    refine ⟨b, ?_, h2⟩
    dsimp only
    rw [if_neg, h1]
    intro e
    rw [e, hnone] at h1
    cases h1
  · intro i x hx
    rcases hg i x hx with ⟨rfl, rfl⟩ | hx
    · symm
      rw [List.countP_eq_zero]
      intro op hop hc
      obtain ⟨b, h1, _⟩ := h.live op hop
      rw [show op.block = m.nextBlock by simpa using hc, hnone] at h1
      cases h1
    · exact h.refs i x hx
  · intro i x hx
    rcases hg i x hx with ⟨rfl, rfl⟩ | hx
    · exact ⟨rfl, show 0 < 2 ^ 64 by decide⟩
    · exact h.size i x hx
  · intro i x o i' x' o' p h1 h2 h3 h4
    rcases hg i x h1 with ⟨rfl, rfl⟩ | h1
    · simp [loc] at h3
    rcases hg i' x' h2 with ⟨rfl, rfl⟩ | h2
    · simp [loc] at h4
    exact h.inj i x o i' x' o' p h1 h2 h3 h4
  · intro i x o f a h1 h2
    rcases hg i x h1 with ⟨rfl, rfl⟩ | h1
    · simp [loc] at h2
    exact h.below i x o f a h1 h2
  · exact h.cur
  · intro i hi
    have hi : m.nextBlock + 1 ≤ i := hi
    dsimp only
    rw [if_neg (by omega)]
    exact h.fresh i (by omega)
  · intro i hi
    obtain ⟨h1, h2⟩ := h.posted i hi
    refine ⟨Nat.lt_succ_of_lt h1, fun x hx => ?_⟩
    rcases hg i x hx with ⟨rfl, rfl⟩ | hx
    · omega
    · exact h2 x hx
  · exact h.fault

/-- Members that only tell about the past, or what the next handler is called. -/
theorem safe_trace {m : Mem} (h : Safe m) (t : List (Api × Res)) (n : Nat) : Safe { m with trace := t, nextHandle := n } :=
  ⟨h.live, h.refs, h.size, h.inj, h.below, h.cur, h.fresh, h.posted, h.fault⟩

theorem safe_io {m : Mem} (h : Safe m) (d : Nat → File) (bu : Nat → Nat → Nat → Option UInt8) (c : List (Nat × Bool)) :
    Safe { m with disk := d, buffer := bu, calls := c } :=
  ⟨h.live, h.refs, h.size, h.inj, h.below, h.cur, h.fresh, h.posted, h.fault⟩

theorem safe_call {m : Mem} (h : Safe m) (a : Api) : Safe (m.call a) := by
  cases a with
  | alloc size d =>
    have := safe_resizeBlock (safe_new h) size d (id := m.nextBlock) (b := ⟨[], 0, 0, false⟩) (by simp)
    exact safe_trace this _ _
  | resize id size d =>
    unfold Mem.call Mem.resize
    dsimp only
    cases hb : m.blocks id with
    | none => exact safe_trace h _ _
    | some b => exact safe_trace (safe_resizeBlock h size d hb) _ _
  | delete id => exact safe_trace (safe_delete h id) _ _
  | write reqs => exact safe_trace (safe_requests h _ _ _) _ _
  | read reqs => exact safe_trace (safe_requests h _ _ _) _ _

theorem safe_calls {m : Mem} (h : Safe m) (as : List Api) : Safe (as.foldl Mem.call m) := by
  induction as generalizing m with
  | nil => exact h
  | cons a as ih => exact ih (safe_call h a)

/-- Calls put operations behind those that are there. -/
theorem call_ops (m : Mem) (a : Api) : ∃ new, (m.call a).ops = m.ops ++ new := by
  have hrb : ∀ (m : Mem) id size d b, (m.resizeBlock id size d b).2.ops = m.ops := by
    intro m id size d b
    rcases resizeBlock_cases m id size d b with ⟨_, e⟩ | ⟨c, _, hc, e⟩
    · rw [e]; exact (setup_same m d).ops
    · rw [e]; exact (setup_same m d).ops
  have hreq : ∀ (m : Mem) h s rs, ∃ new, (m.requests h s rs).2.ops = m.ops ++ new := by
    intro m h s rs
    obtain ⟨new, e, _⟩ := requests_add m h s rs
    exact ⟨new, by rw [e]; rfl⟩
  cases a with
  | alloc size d => exact ⟨[], by rw [List.append_nil]; exact hrb _ _ _ _ _⟩
  | resize id size d =>
    refine ⟨[], ?_⟩
    rw [List.append_nil]
    unfold Mem.call Mem.resize
    dsimp only
    cases hb : m.blocks id with
    | none => rfl
    | some b => exact hrb _ _ _ _ _
  | delete id =>
    refine ⟨[], ?_⟩
    rw [List.append_nil]
    unfold Mem.call Mem.delete
    dsimp only
    split
    · rfl
    · split_ifs <;> rfl
  | write reqs => exact hreq _ _ _ _
  | read reqs => exact hreq _ _ _ _

theorem calls_ops (m : Mem) (as : List Api) : ∃ new, (as.foldl Mem.call m).ops = m.ops ++ new := by
  induction as generalizing m with
  | nil => exact ⟨[], by simp⟩
  | cons a as ih =>
    obtain ⟨n1, h1⟩ := call_ops m a
    obtain ⟨n2, h2⟩ := ih (m.call a)
    exact ⟨n1 ++ n2, by rw [List.foldl_cons, h2, h1, List.append_assoc]⟩

/-- The first operation of a file, and what is before it. -/
theorem find_split {l : List Op} {file : Nat} {op : Op} (h : l.find? (fun o => decide (o.file = file)) = some op) :
    op.file = file ∧ ∃ pre post, l = pre ++ op :: post ∧ (∀ o ∈ pre, o.file ≠ file) ∧ ∀ new, (l ++ new).eraseP (fun o => decide (o.file = file)) = pre ++ post ++ new := by
  obtain ⟨h1, pre, post, h2, h3⟩ := List.find?_eq_some_iff_append.1 h
  have h1 : op.file = file := by simpa using h1
  refine ⟨h1, pre, post, h2, fun o ho => by simpa using h3 o ho, fun new => ?_⟩
  rw [h2, List.append_assoc, List.eraseP_append_right]
  · rw [List.cons_append, List.eraseP_cons_of_pos (by simpa using h1)]
    simp
  · intro b hb
    simpa using h3 b hb

theorem safe_finish {m : Mem} (h : Safe m) {op : Op} {pre post : List Op} (ho : m.ops = pre ++ op :: post)
    (he : m.ops.eraseP (fun o => decide (o.file = op.file)) = pre ++ post) : Safe (m.finish op) := by
  have hmem : op ∈ m.ops := by rw [ho]; simp
  obtain ⟨b, hb, hf⟩ := h.live op hmem
  unfold Mem.finish
  rw [hb]
  dsimp only
  rw [he]
  have hsub : ∀ o ∈ pre ++ post, o ∈ m.ops := by
    intro o hx
    rw [ho]
    rcases List.mem_append.1 hx with hx | hx <;> simp [hx]
  have hcount : ∀ id, m.ops.countP (fun o => o.block = id) = (pre ++ post).countP (fun o => o.block = id) + if op.block = id then 1 else 0 := by
    intro id
    rw [ho, List.countP_append, List.countP_append, List.countP_cons]
    simp only [decide_eq_true_eq]
    omega
  have hg : ∀ i x, (if i = op.block then some ({ b with refs := b.refs - 1 } : Block) else m.blocks i) = some x →
      ∃ y, m.blocks i = some y ∧ x.refs = (pre ++ post).countP (fun o => o.block = i) ∧ x.marked = y.marked ∧ x.size = y.size ∧ x.frags = y.frags := by
    intro i x hx
    split_ifs at hx with hi
    · cases hx
      refine ⟨b, by rw [hi, hb], ?_, rfl, rfl, rfl⟩
      have h1 := h.refs _ b hb
      have h2 := hcount op.block
      rw [if_pos rfl] at h2
      rw [hi]
      show b.refs - 1 = _
      omega
    · have h2 := hcount i
      rw [if_neg (fun e => hi e.symm)] at h2
      exact ⟨x, hx, by rw [h.refs i x hx, h2, Nat.add_zero], rfl, rfl, rfl⟩
  have hid : op.block < m.nextBlock := by
    by_contra hc
    rw [h.fresh _ (by omega)] at hb
    cases hb
  constructor
  · intro o hx
    obtain ⟨y, g1, g2⟩ := h.live o (hsub o hx)
    dsimp only
    by_cases hi : o.block = op.block
    · rw [if_pos hi]
      rw [hi, hb] at g1
      cases g1
      exact ⟨_, rfl, g2⟩
    · rw [if_neg hi]
      exact ⟨y, g1, g2⟩
  · intro i x hx
    obtain ⟨y, g1, g2, _⟩ := hg i x hx
    exact g2
  · intro i x hx
    obtain ⟨y, g1, _, _, g2, g3⟩ := hg i x hx
    rw [g2, g3]
    exact h.size i y g1
  · intro i x o i' x' o' p e1 e2 e3 e4
    obtain ⟨y, g1, _, _, _, g3⟩ := hg i x e1
    obtain ⟨y', g1', _, _, _, g3'⟩ := hg i' x' e2
    rw [g3] at e3
    rw [g3'] at e4
    exact h.inj i y o i' y' o' p g1 g1' e3 e4
  · intro i x o f a e1 e2
    obtain ⟨y, g1, _, _, _, g3⟩ := hg i x e1
    rw [g3] at e2
    exact h.below i y o f a g1 e2
  · exact h.cur
  · intro i hi
    have hi : m.nextBlock ≤ i := hi
    dsimp only
    rw [if_neg (by omega)]
    exact h.fresh i hi
  · intro i hi
    have hold : i ∈ m.posted → i < m.nextBlock ∧ ∀ x, (if i = op.block then some ({ b with refs := b.refs - 1 } : Block) else m.blocks i) = some x → x.marked = true ∧ x.refs = 0 := by
      intro hi
      obtain ⟨h1, h2⟩ := h.posted i hi
      refine ⟨h1, fun x hx => ?_⟩
      split_ifs at hx with he
      · obtain ⟨k1, k2⟩ := h2 b (by rw [he, hb])
        cases hx
        exact ⟨k1, by show b.refs - 1 = 0; omega⟩
      · exact h2 x hx
    dsimp only at hi
    split_ifs at hi with hm
    · rcases List.mem_append.1 hi with hi | hi
      · exact hold hi
      · simp only [List.mem_singleton] at hi
        subst hi
        refine ⟨hid, fun x hx => ?_⟩
        dsimp only at hx
        rw [if_pos rfl] at hx
        cases hx
        exact ⟨hm.1, hm.2⟩
    · exact hold hi
  · exact h.fault

theorem safe_complete {m : Mem} (h : Safe m) (file : Nat) (error : Bool) (inner : List Api) : Safe (m.complete file error inner) := by
  unfold Mem.complete
  split
  · exact h
  · rename_i op hop
    obtain ⟨hf, pre, post, h1, _, h3⟩ := find_split hop
    dsimp only
    have key : ∀ m2 : Mem, Safe m2 → (∃ new, m2.ops = m.ops ++ new) → Safe (m2.finish op) := by
      rintro m2 hs ⟨new, hn⟩
      refine safe_finish hs (pre := pre) (post := post ++ new) ?_ ?_
      · rw [hn, h1]
        simp
      · rw [hn, hf, h3 new]
        simp
    apply key
    · split_ifs
      · exact safe_calls (safe_io h _ _ _) _
      · exact safe_calls (safe_io h _ _ _) _
      · exact h
      · exact safe_io h _ _ _
    · split_ifs
      · exact calls_ops _ _
      · exact calls_ops _ _
      · exact ⟨[], by simp⟩
      · exact ⟨[], by simp⟩

theorem safe_step {m : Mem} (h : Safe m) (e : Ev) : Safe (m.step e) := by
  cases e with
  | call a => exact safe_call h a
  | complete f er inner => exact safe_complete h f er inner
  | force =>
    unfold Mem.step Mem.force
    dsimp only
    split
    · exact h
    · rename_i id rest hp
      have := safe_erase h (id := id) fun b hb => ((h.posted id (by rw [hp]; simp)).2 b hb).2
      exact ⟨this.live, this.refs, this.size, this.inj, this.below, this.cur, this.fresh,
        fun i hi => this.posted i (by show i ∈ m.posted; rw [hp]; simp [hi]), this.fault⟩
  | timer =>
    exact ⟨h.live, h.refs, h.size, h.inj, fun id b o f a h1 h2 => ⟨(h.below id b o f a h1 h2).1, fun e => (nomatch e)⟩, fun c e => (nomatch e), h.fresh, h.posted, h.fault⟩

theorem safe_run {m : Mem} (h : Safe m) (es : List Ev) : Safe (m.run es) := by
  induction es generalizing m with
  | nil => exact h
  | cons e es ih => exact ih (safe_step h e)

end Hdtn.FileMem
