import Verif.FileMem.Spec
import Mathlib.Tactic.Ring
import Mathlib.Tactic.SplitIfs
import Mathlib.Data.List.Basic

/-!
Lemmas about blocks in files: where the bytes of a block are, what a request puts into the queues, and what is safe at all times.
-/

namespace Hdtn.FileMem

open Hdtn.FileMem.Spec

/-! ### Where the bytes are -/

/-- The file and the place in it where the byte `o` of a block is. -/
def loc : List Frag → Nat → Option (Nat × Nat)
  | [], _ => none
  | f :: fs, o => if o < f.len then some (f.file, f.base + o) else loc fs (o - f.len)

def total (fs : List Frag) : Nat := (fs.map (·.len)).sum

theorem loc_some {fs : List Frag} {o : Nat} : (loc fs o).isSome ↔ o < total fs := by
  induction fs generalizing o with
  | nil => simp [loc, total]
  | cons f fs ih =>
    unfold loc total
    rw [List.map_cons, List.sum_cons]
    have := @ih (o - f.len)
    unfold total at this
    split_ifs with h
    · simp only [Option.isSome_some, true_iff]
      omega
    · rw [this]
      omega

theorem loc_append (fs gs : List Frag) (o : Nat) : loc (fs ++ gs) o = if o < total fs then loc fs o else loc gs (o - total fs) := by
  induction fs generalizing o with
  | nil => simp [loc, total]
  | cons f fs ih =>
    rw [List.cons_append, loc, loc, ih]
    have : total (f :: fs) = f.len + total fs := by simp [total]
    rw [this]
    by_cases h1 : o < f.len
    · rw [if_pos h1, if_pos h1, if_pos (by omega)]
    · rw [if_neg h1, if_neg h1]
      by_cases h2 : o - f.len < total fs
      · rw [if_pos h2, if_pos (by omega)]
      · rw [if_neg h2, if_neg (by omega)]
        congr 1
        omega

theorem loc_mem {fs : List Frag} {o file a : Nat} (h : loc fs o = some (file, a)) : ∃ f ∈ fs, f.file = file := by
  induction fs generalizing o with
  | nil => simp [loc] at h
  | cons f fs ih =>
    unfold loc at h
    split_ifs at h with hlt
    · simp only [Option.some.injEq, Prod.mk.injEq] at h
      exact ⟨f, by simp, h.1⟩
    · obtain ⟨g, hg, e⟩ := ih h
      exact ⟨g, by simp [hg], e⟩

theorem pieces_file {off stop start pos : Nat} {fs : List Frag} {p : Nat × Nat × Nat × Nat} (h : p ∈ pieces off stop start pos fs) :
    p.1 ∈ fs.map (·.file) := by
  induction fs generalizing start pos with
  | nil => simp [pieces] at h
  | cons f fs ih =>
    unfold pieces at h
    dsimp only at h
    split_ifs at h
    · rcases List.mem_cons.1 h with rfl | h
      · simp
      · simp [ih h]
    · simp [ih h]

theorem pieces_sound {off stop start : Nat} (hos : off ≤ stop) (hst : stop < 2 ^ 64) {fs : List Frag} {file offset len pos : Nat}
    (h : (file, offset, len, pos) ∈ pieces off stop start (min start stop - off) fs) :
    off + pos + len ≤ stop ∧ start ≤ off + pos ∧ ∀ j < len, loc fs (off + pos + j - start) = some (file, offset + j) := by
  induction fs generalizing start with
  | nil => simp [pieces] at h
  | cons f fs ih =>
    unfold pieces at h
    dsimp only at h
    have htail : ∀ {p}, p = min (start + f.len) stop - off → (file, offset, len, pos) ∈ pieces off stop (start + f.len) p fs →
        off + pos + len ≤ stop ∧ start ≤ off + pos ∧ ∀ j < len, loc (f :: fs) (off + pos + j - start) = some (file, offset + j) := by
      intro p hp hm
      subst hp
      obtain ⟨h1, h2, h3⟩ := ih hm
      refine ⟨h1, by omega, fun j hj => ?_⟩
      unfold loc
      rw [if_neg (by omega), ← h3 j hj]
      congr 1
      omega
    by_cases hc : off ≤ start + f.len ∧ start ≤ stop
    · rw [if_pos hc] at h
      have hlen : (min (start + f.len) stop + U64 - max start off) % U64 = min (start + f.len) stop - max start off := by
        unfold U64
        omega
      rw [hlen] at h
      rcases List.mem_cons.1 h with h | h
      · simp only [Prod.mk.injEq] at h
        obtain ⟨rfl, rfl, rfl, rfl⟩ := h
        refine ⟨by omega, by omega, fun j hj => ?_⟩
        unfold loc
        rw [if_pos (by omega)]
        simp only [Option.some.injEq, Prod.mk.injEq, true_and]
        omega
      · exact htail (by omega) h
    · rw [if_neg hc] at h
      exact htail (by omega) h

theorem pieces_cover {off stop start : Nat} (hos : off ≤ stop) (hst : stop < 2 ^ 64) {fs : List Frag} {i : Nat} (h1 : off + i < stop)
    (h2 : start ≤ off + i) (h3 : off + i < start + total fs) :
    ∃ p ∈ pieces off stop start (min start stop - off) fs, p.2.2.2 ≤ i ∧ i < p.2.2.2 + p.2.2.1 := by
  induction fs generalizing start with
  | nil => simp [total] at h3; omega
  | cons f fs ih =>
    have ht : total (f :: fs) = f.len + total fs := by simp [total]
    unfold pieces
    dsimp only
    by_cases hlt : off + i < start + f.len
    · rw [if_pos (by omega)]
      refine ⟨_, List.mem_cons_self, ?_, ?_⟩
      · dsimp only
        omega
      · dsimp only
        unfold U64
        omega
    · obtain ⟨p, hp, hp2⟩ := @ih (start + f.len) (by omega) (by omega)
      by_cases hc : off ≤ start + f.len ∧ start ≤ stop
      · rw [if_pos hc]
        refine ⟨p, List.mem_cons_of_mem _ ?_, hp2⟩
        have : min start stop - off + (min (start + f.len) stop + U64 - max start off) % U64 = min (start + f.len) stop - off := by
          unfold U64
          omega
        rw [this]
        exact hp
      · rw [if_neg hc]
        have : min start stop - off = min (start + f.len) stop - off := by omega
        rw [this]
        exact ⟨p, hp, hp2⟩

/-! ### What a request puts into the queues -/

/-- New operations. -/
def Mem.add (m : Mem) (new : List Op) : Mem :=
  { m with
    ops := m.ops ++ new
    blocks := fun i => (m.blocks i).map fun b => { b with refs := b.refs + new.countP (fun o => o.block = i) } }

theorem add_nil (m : Mem) : m.add [] = m := by
  unfold Mem.add
  simp

theorem add_add (m : Mem) (a b : List Op) : (m.add a).add b = m.add (a ++ b) := by
  unfold Mem.add
  simp only [List.append_assoc, Option.map_map, List.countP_append]
  congr
  funext i
  congr
  funext x
  simp [Nat.add_assoc]

def opOf (id : Nat) (data : Option Bytes) (h slot : Nat) (p : Nat × Nat × Nat × Nat) : Op :=
  ⟨p.1, id, p.2.1, p.2.2.1, data.map fun d => (d.drop p.2.2.2).take p.2.2.1, h, slot, p.2.2.2⟩

theorem enqueue_add (m : Mem) (id : Nat) (data : Option Bytes) (h slot : Nat) (ps : List (Nat × Nat × Nat × Nat)) :
    ∃ new, (m.enqueue id data h slot ps).2 = m.add new ∧ new <+: ps.map (opOf id data h slot) ∧
      ((m.enqueue id data h slot ps).1 = true → new = ps.map (opOf id data h slot)) := by
  induction ps generalizing m with
  | nil => exact ⟨[], (add_nil m).symm, List.prefix_rfl, fun _ => rfl⟩
  | cons p ps ih =>
    obtain ⟨file, offset, len, pos⟩ := p
    unfold Mem.enqueue
    split_ifs with hv
    · dsimp only
      have hone : ({ m with
          ops := m.ops ++ [⟨file, id, offset, len, data.map fun d => (d.drop pos).take len, h, slot, pos⟩]
          blocks := fun i => if i = id then (m.blocks i).map fun b => { b with refs := b.refs + 1 } else m.blocks i } : Mem) =
          m.add [opOf id data h slot (file, offset, len, pos)] := by
        unfold Mem.add opOf
        congr
        funext i
        by_cases hi : i = id
        · subst hi
          simp
        · rw [if_neg hi]
          have : id ≠ i := fun e => hi e.symm
          simp [this]
      obtain ⟨new, h1, h2, h3⟩ := ih (m.add [opOf id data h slot (file, offset, len, pos)])
      rw [hone]
      refine ⟨opOf id data h slot (file, offset, len, pos) :: new, ?_, ?_, fun ho => ?_⟩
      · rw [h1, add_add]
        rfl
      · rw [List.map_cons, List.prefix_cons_inj]
        exact h2
      · rw [h3 ho]
        rfl
    · exact ⟨[], (add_nil m).symm, List.nil_prefix, fun hc => by simp at hc⟩

/-- All operations of a request. -/
def opsOf (blocks : Nat → Option Block) (h slot : Nat) (r : Nat × Nat × Nat × Option Bytes) : List Op :=
  match blocks r.1 with
  | none => []
  | some b => (pieces r.2.1 ((r.2.1 + r.2.2.1) % U64) 0 0 b.frags).map (opOf r.1 r.2.2.2 h slot)

theorem opsOf_add (m : Mem) (new : List Op) (h slot : Nat) (r : Nat × Nat × Nat × Option Bytes) :
    opsOf (m.add new).blocks h slot r = opsOf m.blocks h slot r := by
  unfold opsOf Mem.add
  dsimp only
  cases m.blocks r.1 <;> rfl

/-- A request that can be accepted. -/
def Ok (blocks : Nat → Option Block) (r : Nat × Nat × Nat × Option Bytes) : Prop :=
  ∃ b, blocks r.1 = some b ∧ b.marked = false ∧ (r.2.1 + r.2.2.1) % U64 ≤ b.size

theorem ok_add {m : Mem} {new : List Op} {r : Nat × Nat × Nat × Option Bytes} : Ok (m.add new).blocks r ↔ Ok m.blocks r := by
  unfold Ok Mem.add
  dsimp only
  constructor
  · rintro ⟨b, hb, h⟩
    obtain ⟨b', hb', rfl⟩ := Option.map_eq_some_iff.1 hb
    exact ⟨b', hb', h⟩
  · rintro ⟨b, hb, h⟩
    exact ⟨{ b with refs := b.refs + new.countP (fun o => o.block = r.1) }, by rw [hb]; rfl, h⟩

theorem request_add (m : Mem) (id off len : Nat) (data : Option Bytes) (h slot : Nat) :
    ∃ new, (m.request id off len data h slot).2 = m.add new ∧ new <+: opsOf m.blocks h slot (id, off, len, data) ∧ (new ≠ [] → Ok m.blocks (id, off, len, data)) ∧
      ((m.request id off len data h slot).1 = true → Ok m.blocks (id, off, len, data) ∧ new = opsOf m.blocks h slot (id, off, len, data)) := by
  unfold Mem.request
  cases hb : m.blocks id with
  | none => exact ⟨[], (add_nil m).symm, List.nil_prefix, fun h => absurd rfl h, fun hc => by simp at hc⟩
  | some b =>
    dsimp only
    split_ifs with h1 h2
    · exact ⟨[], (add_nil m).symm, List.nil_prefix, fun h => absurd rfl h, fun hc => by simp at hc⟩
    · exact ⟨[], (add_nil m).symm, List.nil_prefix, fun h => absurd rfl h, fun hc => by simp at hc⟩
    · obtain ⟨new, e1, e2, e3⟩ := enqueue_add m id data h slot (pieces off ((off + len) % U64) 0 0 b.frags)
      have hops : opsOf m.blocks h slot (id, off, len, data) = (pieces off ((off + len) % U64) 0 0 b.frags).map (opOf id data h slot) := by
        unfold opsOf
        dsimp only
        rw [hb]
      have hok : Ok m.blocks (id, off, len, data) := ⟨b, hb, by simpa using h1, by simpa using h2⟩
      exact ⟨new, e1, hops ▸ e2, fun _ => hok, fun ho => ⟨hok, hops ▸ e3 ho⟩⟩

/-- All operations of several requests. -/
def allOps (blocks : Nat → Option Block) (h : Nat) : Nat → List (Nat × Nat × Nat × Option Bytes) → List Op
  | _, [] => []
  | slot, r :: rs => opsOf blocks h slot r ++ allOps blocks h (slot + 1) rs

theorem allOps_add (m : Mem) (new : List Op) (h slot : Nat) (rs : List (Nat × Nat × Nat × Option Bytes)) :
    allOps (m.add new).blocks h slot rs = allOps m.blocks h slot rs := by
  induction rs generalizing slot with
  | nil => rfl
  | cons r rs ih => rw [allOps, allOps, opsOf_add, ih]

theorem requests_add (m : Mem) (h slot : Nat) (rs : List (Nat × Nat × Nat × Option Bytes)) :
    ∃ new, (m.requests h slot rs).2 = m.add new ∧ new <+: allOps m.blocks h slot rs ∧ (∀ op ∈ new, ∃ b, m.blocks op.block = some b ∧ b.marked = false) ∧
      ((m.requests h slot rs).1 = true → (∀ r ∈ rs, Ok m.blocks r) ∧ new = allOps m.blocks h slot rs) := by
  induction rs generalizing m slot with
  | nil => exact ⟨[], (add_nil m).symm, List.prefix_rfl, by simp, fun _ => ⟨by simp, rfl⟩⟩
  | cons r rs ih =>
    obtain ⟨id, off, len, data⟩ := r
    unfold Mem.requests
    obtain ⟨new, e1, e2, e4, e3⟩ := request_add m id off len data h slot
    have hblk : ∀ op ∈ new, ∃ b, m.blocks op.block = some b ∧ b.marked = false := by
      intro op hop
      obtain ⟨b, hb, hm, _⟩ := e4 (List.ne_nil_of_mem hop)
      have : op.block = id := by
        have := e2.subset hop
        unfold opsOf at this
        dsimp only at this hb
        rw [hb] at this
        obtain ⟨p, _, rfl⟩ := List.mem_map.1 this
        rfl
      exact ⟨b, by rw [this]; exact hb, hm⟩
    cases hr : m.request id off len data h slot with
    | mk ok m' =>
      rw [hr] at e1 e3
      dsimp only at e1 e3
      cases ok with
      | false =>
        dsimp only
        refine ⟨new, e1, ?_, hblk, fun hc => by simp at hc⟩
        unfold allOps
        exact e2.trans (List.prefix_append _ _)
      | true =>
        dsimp only
        obtain ⟨hok, hnew⟩ := e3 rfl
        obtain ⟨new', f1, f2, f4, f3⟩ := ih m' (slot + 1)
        rw [e1] at f1 f2 f3 f4
        rw [e1]
        refine ⟨new ++ new', by rw [f1, add_add], ?_, ?_, fun ho => ?_⟩
        · unfold allOps
          rw [← hnew, List.prefix_append_right_inj, ← allOps_add m new]
          exact f2
        · intro op hop
          rcases List.mem_append.1 hop with hop | hop
          · exact hblk op hop
          · obtain ⟨b, hb, hm⟩ := f4 op hop
            obtain ⟨b', hb', rfl⟩ := Option.map_eq_some_iff.1 hb
            exact ⟨b', hb', hm⟩
        · obtain ⟨g1, g2⟩ := f3 ho
          refine ⟨?_, ?_⟩
          · intro r hr
            rcases List.mem_cons.1 hr with rfl | hr
            · exact hok
            · exact ok_add.1 (g1 r hr)
          · unfold allOps
            rw [g2, ← hnew, allOps_add]

theorem mem_allOps {blocks : Nat → Option Block} {h slot : Nat} {rs : List (Nat × Nat × Nat × Option Bytes)} {op : Op} (hop : op ∈ allOps blocks h slot rs) :
    ∃ k r, rs[k]? = some r ∧ op ∈ opsOf blocks h (slot + k) r := by
  induction rs generalizing slot with
  | nil => simp [allOps] at hop
  | cons r rs ih =>
    unfold allOps at hop
    rcases List.mem_append.1 hop with hop | hop
    · exact ⟨0, r, rfl, hop⟩
    · obtain ⟨k, r', h1, h2⟩ := ih hop
      exact ⟨k + 1, r', h1, by rw [show slot + (k + 1) = slot + 1 + k by omega]; exact h2⟩

theorem allOps_mem {blocks : Nat → Option Block} {h slot k : Nat} {rs : List (Nat × Nat × Nat × Option Bytes)} {r : Nat × Nat × Nat × Option Bytes} {op : Op}
    (hr : rs[k]? = some r) (hop : op ∈ opsOf blocks h (slot + k) r) : op ∈ allOps blocks h slot rs := by
  induction rs generalizing slot k with
  | nil => simp at hr
  | cons x rs ih =>
    unfold allOps
    cases k with
    | zero =>
      simp only [List.getElem?_cons_zero, Option.some.injEq] at hr
      subst hr
      exact List.mem_append_left _ hop
    | succ k =>
      simp only [List.getElem?_cons_succ] at hr
      exact List.mem_append_right _ (ih hr (by rw [show slot + 1 + k = slot + (k + 1) by omega]; exact hop))

theorem mem_opsOf {blocks : Nat → Option Block} {h slot : Nat} {r : Nat × Nat × Nat × Option Bytes} {op : Op} (hop : op ∈ opsOf blocks h slot r) :
    ∃ b, blocks r.1 = some b ∧ op.block = r.1 ∧ op.handle = h ∧ op.slot = slot ∧ op.file ∈ b.frags.map (·.file) := by
  unfold opsOf at hop
  split at hop
  · simp at hop
  · rename_i b hb
    obtain ⟨p, hp, rfl⟩ := List.mem_map.1 hop
    exact ⟨b, hb, rfl, rfl, rfl, pieces_file hp⟩

end Hdtn.FileMem
