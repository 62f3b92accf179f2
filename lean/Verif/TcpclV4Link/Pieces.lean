import Verif.TcpclV4Link.Spec
import Verif.TcpclV4.Complete
import Verif.TcpclV4.Props

/-! The segments of a bundle, and putting them together again. -/

namespace Hdtn.TcpclV4Link

open TcpclV4 (Event Ext)
open TcpclV4.Spec (generate Sendable Fits opens)

/-- A bundle that was accepted: its transfer, contents and user data. -/
structure Job where
  id : Nat
  bundle : Bytes
  user : Bytes

/-- A segment, the acknowledgement for it and the user data kept with that. -/
structure Piece where
  event : Event
  ack : Ack
  user : Bytes

/-- The pieces that the loop of `fragment` makes. -/
def piecesFrom (seg id total : Nat) (user : Bytes) : Nat → Nat → Bytes → List Piece
  | 0, _, _ => []
  | fuel + 1, index, rest =>
    let n := min (total - index) seg
    let isStart := index == 0
    let isEnd := n + index == total
    let event := if isStart then Event.data (rest.take n) true false id [⟨1, 1, toBe 8 total⟩]
      else .data (rest.take n) false isEnd id []
    let p : Piece := ⟨event, ⟨isStart, isEnd, id, index + n⟩, if isEnd then user else []⟩
    p :: (if isEnd then [] else piecesFrom seg id total user fuel (index + n) (rest.drop n))

/-- The pieces of a bundle. -/
def pieces (seg : Nat) (j : Job) : List Piece :=
  if j.bundle.length > seg then piecesFrom seg j.id j.bundle.length j.user j.bundle.length 0 j.bundle
  else [⟨.data j.bundle true true j.id [], ⟨true, true, j.id, j.bundle.length⟩, j.user⟩]

/-- The entries of the queue for pieces. -/
def entries (ps : List Piece) : List (Ack × Bytes) := ps.map fun p => (p.ack, p.user)

theorem fragment_cases (seg id total : Nat) (user : Bytes) (hs : 0 < seg) : ∀ (fuel index : Nat) (rest : Bytes) (ring : Ring),
    rest ≠ [] → index + rest.length = total → rest.length ≤ fuel → (index = 0 → seg < total) →
    ((fragment seg id total user fuel index rest ring).2 = none ∧
        ring.cap < ring.items.length + (piecesFrom seg id total user fuel index rest).length) ∨
      fragment seg id total user fuel index rest ring =
        (⟨ring.cap, ring.items ++ entries (piecesFrom seg id total user fuel index rest)⟩,
          some ((piecesFrom seg id total user fuel index rest).map fun p => generate p.event)) := by
  intro fuel
  induction fuel with
  | zero =>
    intro index rest ring hr _ hf
    exact absurd (List.length_eq_zero_iff.1 (by omega)) hr
  | succ fuel ih =>
    intro index rest ring hr ht hf h0
    have hpos : 0 < rest.length := List.length_pos_iff.2 hr
    have hn : total - index = rest.length := by omega
    set n := min (total - index) seg with hnd
    have hnle : n ≤ rest.length := by omega
    have hnpos : 0 < n := by omega
    have hlen : (rest.take n).length = n := by simp [hnle]
    have hgen : (if (index == 0) = true then TcpclV4.genFirstHeader id n total
        else TcpclV4.genNextHeader (n + index == total) id n) ++ rest.take n =
        generate (if (index == 0) = true then Event.data (rest.take n) true false id [⟨1, 1, toBe 8 total⟩]
          else .data (rest.take n) false (n + index == total) id []) := by
      have hg := TcpclV4.C46_generators id total (rest.take n) (n + index == total) []
      rw [hlen] at hg
      split
      · exact hg.2.2.2.2.2.2.1
      · exact hg.2.2.2.2.2.2.2
    simp only [fragment, piecesFrom, ← hnd]
    by_cases hfull : ring.items.length < ring.cap
    · simp only [push, if_pos hfull]
      by_cases he : (n + index == total) = true
      · right
        simp only [he, if_true, List.map_cons, List.map_nil, entries]
        rw [he] at hgen
        rw [hgen]
      · have he' : (n + index == total) = false := by simpa using he
        simp only [he', Bool.false_eq_true, if_false]
        have hne : n + index ≠ total := by simpa using he
        have := ih (index + n) (rest.drop n) ⟨ring.cap, ring.items ++ [(⟨index == 0, false, id, index + n⟩, [])]⟩
          (by
            intro h
            have : (rest.drop n).length = 0 := by rw [h]; rfl
            rw [List.length_drop] at this
            omega) (by rw [List.length_drop]; omega) (by rw [List.length_drop]; omega) (by omega)
        rcases this with ⟨h1, h2⟩ | h
        · left
          rcases hfr : fragment seg id total user fuel (index + n) (rest.drop n)
            ⟨ring.cap, ring.items ++ [(⟨index == 0, false, id, index + n⟩, [])]⟩ with ⟨r', o⟩
          rw [hfr] at h1
          simp only at h1
          subst h1
          refine ⟨by rw [hfr], ?_⟩
          simp only [List.length_append, List.length_cons, List.length_nil] at h2 ⊢
          omega
        · right
          rw [h]
          simp only [List.map_cons, entries, List.append_assoc, List.cons_append, List.nil_append]
          rw [he'] at hgen
          rw [hgen]
    · left
      simp only [push, if_neg hfull, true_and, List.length_cons]
      omega

/-! ### Putting together -/

/-- What is made of the segments that arrive: what is left of an unfinished bundle, the bundles, and the
acknowledgements. Other messages do not matter. -/
def asm (leaves : Bytes → Bytes) : Bytes → List Event → Bytes × List Bytes × List Event
  | concat, [] => (concat, [], [])
  | concat, .data c s e id _ :: es =>
    if s && e then
      let t := asm leaves concat es
      (t.1, c :: t.2.1, .ack s e id c.length :: t.2.2)
    else
      let now := (if s then [] else concat) ++ c
      if e then
        let t := asm leaves (leaves now) es
        (t.1, now :: t.2.1, .ack s e id now.length :: t.2.2)
      else
        let t := asm leaves now es
        (t.1, t.2.1, .ack s e id now.length :: t.2.2)
  | concat, _ :: es => asm leaves concat es

theorem asm_append (leaves : Bytes → Bytes) (xs ys : List Event) : ∀ concat,
    asm leaves concat (xs ++ ys) = ((asm leaves (asm leaves concat xs).1 ys).1,
      (asm leaves concat xs).2.1 ++ (asm leaves (asm leaves concat xs).1 ys).2.1,
      (asm leaves concat xs).2.2 ++ (asm leaves (asm leaves concat xs).1 ys).2.2) := by
  induction xs with
  | nil => intro c; simp [asm]
  | cons x xs ih =>
    intro c
    cases x <;> simp only [List.cons_append, asm] <;> try exact ih c
    split
    · simp [ih]
    · split <;> simp [ih]

/-- Data segments. -/
def isData : Event → Bool
  | .data _ _ _ _ _ => true
  | _ => false

/-- Acknowledgements. -/
def isAck : Event → Bool
  | .ack _ _ _ _ => true
  | _ => false

theorem asm_filter (leaves : Bytes → Bytes) (xs : List Event) : ∀ concat,
    asm leaves concat (xs.filter isData) = asm leaves concat xs := by
  induction xs with
  | nil => intro c; rfl
  | cons x xs ih =>
    intro c
    by_cases hx : isData x = true
    · rw [List.filter_cons_of_pos hx]
      cases x <;> simp [asm, ih]
    · rw [List.filter_cons_of_neg hx, ih]
      cases x <;> simp [asm]
      simp [isData] at hx

/-- The message for an acknowledgement. -/
def Ack.event (a : Ack) : Event := .ack a.isStart a.isEnd a.id a.total

theorem asm_piecesFrom (leaves : Bytes → Bytes) (seg id total : Nat) (user : Bytes) (hs : 0 < seg) :
    ∀ (fuel index : Nat) (before rest : Bytes), before.length = index → rest ≠ [] → index + rest.length = total →
    rest.length ≤ fuel → (index = 0 → seg < total) → ∀ concat, (index ≠ 0 → concat = before) →
    ∃ concat', asm leaves concat ((piecesFrom seg id total user fuel index rest).map fun p => p.event) =
      (concat', [before ++ rest], (piecesFrom seg id total user fuel index rest).map fun p => p.ack.event) := by
  intro fuel
  induction fuel with
  | zero =>
    intro index before rest _ hr _ hf
    exact absurd (List.length_eq_zero_iff.1 (by omega)) hr
  | succ fuel ih =>
    intro index before rest hb hr ht hf h0 concat hc
    have hpos : 0 < rest.length := List.length_pos_iff.2 hr
    have hn : total - index = rest.length := by omega
    simp only [piecesFrom]
    set n := min (total - index) seg with hnd
    have hnle : n ≤ rest.length := by omega
    have hnpos : 0 < n := by omega
    have hlen : (rest.take n).length = n := by simp [hnle]
    by_cases he : n + index = total
    · have hi : index ≠ 0 := by omega
      have hi' : (index == 0) = false := by simpa using hi
      have hall : rest.take n = rest := List.take_of_length_le (by omega)
      simp only [he, beq_self_eq_true, if_true, hi', Bool.false_eq_true, if_false, List.map_cons, List.map_nil, asm,
        Bool.false_and, hall, hc hi]
      refine ⟨leaves (before ++ rest), ?_⟩
      rw [List.length_append, hb, ht, show index + n = total by omega]
      rfl
    · have he' : (n + index == total) = false := by simpa using he
      have hnext : ∀ cc : Bytes, cc = before ++ rest.take n → ∃ concat', asm leaves cc
          ((piecesFrom seg id total user fuel (index + n) (rest.drop n)).map fun p => p.event) =
          (concat', [before ++ rest], (piecesFrom seg id total user fuel (index + n) (rest.drop n)).map fun p => p.ack.event) := by
        intro cc hcc
        obtain ⟨c', h'⟩ := ih (index + n) (before ++ rest.take n) (rest.drop n) (by rw [List.length_append, hlen, hb])
          (by
            intro h
            have : (rest.drop n).length = 0 := by rw [h]; rfl
            rw [List.length_drop] at this
            omega) (by rw [List.length_drop]; omega) (by rw [List.length_drop]; omega) (by omega) cc (fun _ => hcc)
        rw [List.append_assoc, List.take_append_drop] at h'
        exact ⟨c', h'⟩
      simp only [he', Bool.false_eq_true, if_false]
      by_cases hi : index = 0
      · have hbe : before = [] := List.length_eq_zero_iff.1 (by omega)
        subst hi
        obtain ⟨c', h'⟩ := hnext (rest.take n) (by rw [hbe]; rfl)
        refine ⟨c', ?_⟩
        simp only [beq_self_eq_true, if_true, List.map_cons, asm, Bool.and_false, Bool.false_eq_true, if_false,
          List.nil_append]
        rw [h']
        simp only [hlen, Nat.zero_add, Ack.event]
      · have hi' : (index == 0) = false := by simpa using hi
        obtain ⟨c', h'⟩ := hnext (concat ++ rest.take n) (by rw [hc hi])
        refine ⟨c', ?_⟩
        simp only [hi', Bool.false_eq_true, if_false, List.map_cons, asm, Bool.false_and]
        rw [h']
        simp only [Ack.event, List.length_append, hlen, hc hi, hb]

theorem asm_pieces (leaves : Bytes → Bytes) (seg : Nat) (j : Job) (hs : 0 < seg) (hb : j.bundle ≠ []) (concat : Bytes) :
    ∃ concat', asm leaves concat ((pieces seg j).map fun p => p.event) =
      (concat', [j.bundle], (pieces seg j).map fun p => p.ack.event) := by
  unfold pieces
  split
  · exact asm_piecesFrom leaves seg j.id _ j.user hs _ 0 [] j.bundle rfl hb (by omega) (Nat.le_refl _) (fun _ => by assumption)
      concat (by simp)
  · exact ⟨concat, by simp [asm, Ack.event]⟩

/-- The pieces of all bundles. -/
def allPieces (seg : Nat) (js : List Job) : List Piece := js.flatMap (pieces seg)

theorem asm_allPieces (leaves : Bytes → Bytes) (seg : Nat) (hs : 0 < seg) (js : List Job) :
    (∀ j ∈ js, j.bundle ≠ []) → ∀ concat, ∃ concat', asm leaves concat ((allPieces seg js).map fun p => p.event) =
      (concat', js.map (·.bundle), (allPieces seg js).map fun p => p.ack.event) := by
  induction js with
  | nil => intro _ c; exact ⟨c, rfl⟩
  | cons j js ih =>
    intro h c
    obtain ⟨c1, h1⟩ := asm_pieces leaves seg j hs (h j (by simp)) c
    obtain ⟨c2, h2⟩ := ih (fun x hx => h x (by simp [hx])) c1
    refine ⟨c2, ?_⟩
    rw [show allPieces seg (j :: js) = pieces seg j ++ allPieces seg js from rfl]
    simp only [List.map_append, asm_append, h1, h2, List.map_cons, List.singleton_append]

/-! ### Facts about pieces -/

theorem piecesFrom_length (seg id total : Nat) (user : Bytes) (hs : 0 < seg) : ∀ (fuel index : Nat) (rest : Bytes),
    rest ≠ [] → index + rest.length = total → rest.length ≤ fuel →
    (piecesFrom seg id total user fuel index rest).length ≤ (rest.length - 1) / seg + 1 := by
  intro fuel
  induction fuel with
  | zero =>
    intro index rest hr _ hf
    exact absurd (List.length_eq_zero_iff.1 (by omega)) hr
  | succ fuel ih =>
    intro index rest hr ht hf
    have hpos : 0 < rest.length := List.length_pos_iff.2 hr
    simp only [piecesFrom, List.length_cons]
    set n := min (total - index) seg with hnd
    split
    · simp
    · rename_i he
      have he' : n + index ≠ total := by simpa using he
      have hn : n = seg := by omega
      have hd : (rest.drop n).length = rest.length - seg := by rw [List.length_drop, hn]
      have := ih (index + n) (rest.drop n) (by
            intro h
            have : (rest.drop n).length = 0 := by rw [h]; rfl
            omega) (by omega) (by omega)
      rw [hd] at this
      have h3 : (rest.length - 1) / seg = (rest.length - seg - 1) / seg + 1 := by
        rw [show rest.length - 1 = rest.length - seg - 1 + seg by omega, Nat.add_div_right _ hs]
      omega

theorem pieces_length (d : Cfg) (j : Job) (hs : 0 < Spec.segment d) (hb : j.bundle ≠ []) (hl : j.bundle.length ≤ d.xferMru) :
    (pieces (Spec.segment d) j).length ≤ Spec.perBundle d := by
  unfold pieces Spec.perBundle
  split
  · have := piecesFrom_length (Spec.segment d) j.id j.bundle.length j.user hs j.bundle.length 0 j.bundle hb (by omega) (Nat.le_refl _)
    have h2 : (j.bundle.length - 1) / Spec.segment d ≤ d.xferMru / Spec.segment d := Nat.div_le_div_right (by omega)
    omega
  · simp

/-- Exactly the last piece is the end of the bundle, and has its user data. -/
theorem piecesFrom_ends (seg id total : Nat) (user : Bytes) (hs : 0 < seg) : ∀ (fuel index : Nat) (rest : Bytes),
    rest ≠ [] → index + rest.length = total → rest.length ≤ fuel →
    ∃ ps p, piecesFrom seg id total user fuel index rest = ps ++ [p] ∧ p.ack.isEnd = true ∧ p.user = user ∧
      ∀ q ∈ ps, q.ack.isEnd = false := by
  intro fuel
  induction fuel with
  | zero =>
    intro index rest hr _ hf
    exact absurd (List.length_eq_zero_iff.1 (by omega)) hr
  | succ fuel ih =>
    intro index rest hr ht hf
    have hpos : 0 < rest.length := List.length_pos_iff.2 hr
    simp only [piecesFrom]
    set n := min (total - index) seg with hnd
    by_cases he : n + index = total
    · simp only [he, beq_self_eq_true, if_true]
      exact ⟨[], _, rfl, rfl, rfl, by simp⟩
    · have he' : (n + index == total) = false := by simpa using he
      simp only [he', Bool.false_eq_true, if_false]
      obtain ⟨ps, p, h1, h2, h3, h4⟩ := ih (index + n) (rest.drop n) (by
            intro h
            have : (rest.drop n).length = 0 := by rw [h]; rfl
            rw [List.length_drop] at this
            omega) (by rw [List.length_drop]; omega) (by rw [List.length_drop]; omega)
      rw [h1]
      refine ⟨_ :: ps, p, rfl, h2, h3, ?_⟩
      intro q hq
      rcases List.mem_cons.1 hq with rfl | hq
      · rfl
      · exact h4 q hq

theorem pieces_ends (seg : Nat) (j : Job) (hs : 0 < seg) (hb : j.bundle ≠ []) :
    ∃ ps p, pieces seg j = ps ++ [p] ∧ p.ack.isEnd = true ∧ p.user = j.user ∧ ∀ q ∈ ps, q.ack.isEnd = false := by
  unfold pieces
  split
  · exact piecesFrom_ends _ _ _ _ hs _ _ _ hb (by omega) (Nat.le_refl _)
  · exact ⟨[], _, rfl, rfl, rfl, by simp⟩

theorem isData_piecesFrom (seg id total : Nat) (user : Bytes) : ∀ (fuel index : Nat) (rest : Bytes),
    ∀ p ∈ piecesFrom seg id total user fuel index rest, isData p.event = true := by
  intro fuel
  induction fuel with
  | zero => intro index rest p hp; simp [piecesFrom] at hp
  | succ fuel ih =>
    intro index rest p hp
    simp only [piecesFrom, List.mem_cons] at hp
    rcases hp with rfl | hp
    · by_cases hi : index = 0 <;> simp [hi, isData]
    · split at hp
      · simp at hp
      · exact ih _ _ p hp

theorem isData_pieces (seg : Nat) (j : Job) : ∀ p ∈ pieces seg j, isData p.event = true := by
  unfold pieces
  split
  · exact isData_piecesFrom _ _ _ _ _ _ _
  · simp [isData]

/-- Pieces can be sent and fit. -/
theorem piecesFrom_fits (seg id total lim : Nat) (user : Bytes) (hs : 0 < seg) (hl : seg ≤ lim) (hi : id < 2 ^ 64)
    (h64 : total < 2 ^ 64) : ∀ (fuel index : Nat) (rest : Bytes), rest ≠ [] → index + rest.length = total →
    rest.length ≤ fuel → ∀ p ∈ piecesFrom seg id total user fuel index rest, Sendable p.event ∧ Fits lim p.event := by
  intro fuel
  induction fuel with
  | zero => intro index rest _ _ _ p hp; simp [piecesFrom] at hp
  | succ fuel ih =>
    intro index rest hr ht hf p hp
    have hpos : 0 < rest.length := List.length_pos_iff.2 hr
    simp only [piecesFrom, List.mem_cons] at hp
    set n := min (total - index) seg with hnd
    have hne : (rest.take n).length = n := by simp; omega
    have hne0 : rest.take n ≠ [] := by
      intro h
      rw [h] at hne
      simp at hne
      omega
    rcases hp with rfl | hp
    · by_cases h0 : index = 0
      · simp only [h0, beq_self_eq_true, if_true]
        refine ⟨⟨by omega, hi, ?_, by simp⟩, hne0, by omega⟩
        simp [TcpclV4.Spec.ExtsFit, toBe_length]
      · have h0' : (index == 0) = false := by simpa using h0
        simp only [h0', Bool.false_eq_true, if_false]
        refine ⟨⟨by omega, hi, ?_, by simp⟩, hne0, by omega⟩
        simp [TcpclV4.Spec.ExtsFit]
    · split at hp
      · simp at hp
      · rename_i he
        have he' : n + index ≠ total := by simpa using he
        exact ih _ _ (by
            intro h
            have : (rest.drop n).length = 0 := by rw [h]; rfl
            rw [List.length_drop] at this
            omega) (by rw [List.length_drop]; omega) (by rw [List.length_drop]; omega) p hp

theorem pieces_fits (seg lim : Nat) (j : Job) (hs : 0 < seg) (hl : seg ≤ lim) (hi : j.id < 2 ^ 64) (hb : j.bundle ≠ [])
    (h64 : j.bundle.length < 2 ^ 64) : ∀ p ∈ pieces seg j, Sendable p.event ∧ Fits lim p.event := by
  unfold pieces
  split
  · exact piecesFrom_fits seg j.id _ lim j.user hs hl hi h64 _ 0 _ hb (by omega) (Nat.le_refl _)
  · intro p hp
    simp only [List.mem_singleton] at hp
    subst hp
    refine ⟨⟨h64, hi, ?_, by simp⟩, hb, by omega⟩
    simp [TcpclV4.Spec.ExtsFit]

theorem piecesFrom_ack (seg id total : Nat) (user : Bytes) : ∀ (fuel index : Nat) (rest : Bytes), index ≤ total →
    ∀ p ∈ piecesFrom seg id total user fuel index rest, p.ack.id = id ∧ p.ack.total ≤ total := by
  intro fuel
  induction fuel with
  | zero => intro index rest _ p hp; simp [piecesFrom] at hp
  | succ fuel ih =>
    intro index rest hi p hp
    simp only [piecesFrom, List.mem_cons] at hp
    rcases hp with rfl | hp
    · exact ⟨rfl, by simp only; omega⟩
    · split at hp
      · simp at hp
      · exact ih _ _ (by omega) p hp

theorem pieces_ack (seg : Nat) (j : Job) : ∀ p ∈ pieces seg j, p.ack.id = j.id ∧ p.ack.total ≤ j.bundle.length := by
  unfold pieces
  split
  · exact piecesFrom_ack _ _ _ _ _ _ _ (by omega)
  · simp

theorem asm_prefix (leaves : Bytes → Bytes) (concat : Bytes) {xs ys : List Event} (h : xs <+: ys) :
    (asm leaves concat xs).2.1 <+: (asm leaves concat ys).2.1 ∧ (asm leaves concat xs).2.2 <+: (asm leaves concat ys).2.2 := by
  obtain ⟨zs, rfl⟩ := h
  rw [asm_append]
  exact ⟨List.prefix_append _ _, List.prefix_append _ _⟩

/-- What acknowledgements for part of the pieces are still to come is bounded by the number of bundles whose
end is among them. -/
theorem suffix_bound (n : Nat) (blocks : List (List (Ack × Bytes)))
    (h : ∀ b ∈ blocks, b.length ≤ n ∧ ∃ ps p, b = ps ++ [p] ∧ p.1.isEnd = true ∧ ∀ q ∈ ps, q.1.isEnd = false) :
    ∀ k, ((blocks.flatten).drop k).length ≤ (((blocks.flatten).drop k).filter fun q => q.1.isEnd).length * n := by
  induction blocks with
  | nil => intro k; simp
  | cons b bs ih =>
    intro k
    have ih' := ih fun x hx => h x (by simp [hx])
    obtain ⟨hl, ps, p, hb, hp, hq⟩ := h b (by simp)
    by_cases hk : b.length ≤ k
    · have : (b :: bs).flatten.drop k = bs.flatten.drop (k - b.length) := by
        rw [List.flatten_cons, List.drop_append, List.drop_eq_nil_of_le hk, List.nil_append]
      rw [this]
      exact ih' _
    · have h0 := ih' 0
      simp only [List.drop_zero] at h0
      have hd : (b :: bs).flatten.drop k = b.drop k ++ bs.flatten := by
        rw [List.flatten_cons, List.drop_append, show k - b.length = 0 by omega, List.drop_zero]
      have hbk : b.drop k = ps.drop k ++ [p] := by
        rw [hb, List.drop_append, show k - ps.length = 0 by
          rw [hb, List.length_append, List.length_singleton] at hk; omega, List.drop_zero]
      have hf : ((b.drop k).filter fun q => q.1.isEnd) = [p] := by
        rw [hbk, List.filter_append]
        have : (ps.drop k).filter (fun q => q.1.isEnd) = [] := by
          rw [List.filter_eq_nil_iff]
          intro q hqm
          simp [hq q (List.mem_of_mem_drop hqm)]
        rw [this]
        simp [hp]
      rw [hd, List.filter_append, hf, List.length_append, List.length_append, Nat.add_mul]
      have : (b.drop k).length ≤ n := by rw [List.length_drop]; omega
      simp only [List.length_singleton, Nat.one_mul]
      omega

end Hdtn.TcpclV4Link
