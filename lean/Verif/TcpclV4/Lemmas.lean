import Verif.TcpclV4.Spec

/-! The parser byte by byte, and the turns of the loop as sequences of its steps. -/

namespace Hdtn.TcpclV4

open Spec

/-- The parser byte by byte. -/
def slow (lim : Nat) : Rx → Bytes → List Event × Rx
  | r, [] => ([], r)
  | r, b :: rest => ((step lim r b).2 ++ (slow lim (step lim r b).1 rest).1, (slow lim (step lim r b).1 rest).2)

variable {lim : Nat}

theorem slow_append (a b : Bytes) : ∀ r, slow lim r (a ++ b) =
    ((slow lim r a).1 ++ (slow lim (slow lim r a).2 b).1, (slow lim (slow lim r a).2 b).2) := by
  induction a with
  | nil => intro r; simp [slow]
  | cons c cs ih => intro r; simp [slow, ih]

/-- The bytes lead from one state to another, with these events. -/
def Goes (lim : Nat) (r : Rx) (w : Bytes) (es : List Event) (q : Rx) : Prop := slow lim r w = (es, q)

theorem Goes.nil (r : Rx) : Goes lim r [] [] r := rfl

theorem Goes.append {p q r : Rx} {a b : Bytes} {es fs : List Event} (h : Goes lim p a es q)
    (h' : Goes lim q b fs r) : Goes lim p (a ++ b) (es ++ fs) r := by
  unfold Goes at *
  rw [slow_append, h]
  simp only
  rw [h']

theorem Goes.cons {p q r : Rx} {b : UInt8} {w : Bytes} {es fs : List Event} (h : step lim p b = (q, es))
    (h' : Goes lim q w fs r) : Goes lim p (b :: w) (es ++ fs) r := by
  unfold Goes at *
  simp only [slow]
  rw [h]
  simp only
  rw [h']

theorem Goes.one {p q : Rx} {b : UInt8} {es : List Event} (h : step lim p b = (q, es)) : Goes lim p [b] es q := by
  simpa using Goes.cons h (.nil q)

/-- States that collect bytes up to a length. -/
theorem goes_bytes {p : Bytes → Rx} {f : Bytes → Rx × List Event} {len : Nat}
    (hp : ∀ got b, step lim (p got) b = if (got ++ [b]).length = len then f (got ++ [b]) else (p (got ++ [b]), []))
    (d : Bytes) : ∀ got : Bytes, d ≠ [] → (got ++ d).length = len →
    Goes lim (p got) d (f (got ++ d)).2 (f (got ++ d)).1 := by
  induction d with
  | nil => intro _ h; exact absurd rfl h
  | cons b bs ih =>
    intro got _ hl
    have h1 := hp got b
    by_cases hb : bs = []
    · subst hb
      rw [if_pos (by simpa using hl)] at h1
      exact Goes.one h1
    · rw [if_neg] at h1
      · have h2 := ih (got ++ [b]) hb (by simpa using hl)
        have h3 := Goes.cons h1 h2
        simpa using h3
      · have : 0 < bs.length := List.length_pos_iff.2 hb
        simp only [List.length_append, List.length_cons, List.length_nil] at hl ⊢
        omega

/-- The same, before the length is reached. -/
theorem goes_some {p : Bytes → Rx} {f : Bytes → Rx × List Event} {len : Nat}
    (hp : ∀ got b, step lim (p got) b = if (got ++ [b]).length = len then f (got ++ [b]) else (p (got ++ [b]), []))
    (d : Bytes) : ∀ got : Bytes, (∀ k, 0 < k → k ≤ d.length → got.length + k ≠ len) →
    Goes lim (p got) d [] (p (got ++ d)) := by
  induction d with
  | nil => intro got _; simpa using Goes.nil (p got)
  | cons b bs ih =>
    intro got h
    have h1 := hp got b
    rw [if_neg] at h1
    · have h2 := ih (got ++ [b]) (by
        intro k hk hk'
        have := h (k + 1) (by omega) (by simp; omega)
        simp only [List.length_append, List.length_cons, List.length_nil]
        omega)
      have h3 := Goes.cons h1 h2
      simpa using h3
    · have := h 1 (by omega) (by simp)
      simpa using this

/-- The states `ph tmp` read a number of `n` bytes that is handed to `done`. -/
def Reads (lim n : Nat) (ph : Bytes → Rx) (done : Nat → Rx × List Event) : Prop :=
  ∀ tmp b, step lim (ph tmp) b = field n tmp b ph done

theorem goes_num {ph : Bytes → Rx} {n v : Nat} {done : Nat → Rx × List Event} (hr : Reads lim n ph done) (hn : n ≠ 0)
    {p : Bytes} (hp : IsNum n p v) : Goes lim (ph []) p (done v).2 (done v).1 := by
  have h := goes_bytes (lim := lim) (p := ph) (f := fun got => done (beValue got)) (len := n) (fun got b => hr got b) p []
    (by rintro rfl; exact hn hp.1.symm) (by simpa using hp.1)
  simpa [hp.2] using h

theorem reads_segId (s e : Bool) (left : List Ext) : Reads lim 8 (fun t => ⟨.segId s e t, left⟩)
    fun id => (⟨if s then .segExtLen s e id [] else .segLen s e id [], left⟩, []) := fun _ _ => rfl

theorem reads_segExtLen (s e : Bool) (id : Nat) (left : List Ext) : Reads lim 4 (fun t => ⟨.segExtLen s e id t, left⟩)
    fun n => (startItems s e id n, []) := fun _ _ => rfl

theorem reads_segLen (s e : Bool) (id : Nat) (left : List Ext) : Reads lim 8 (fun t => ⟨.segLen s e id t, left⟩)
    fun n => (startContents lim s e id n left, []) := fun _ _ => rfl

theorem reads_ackId (s e : Bool) (left : List Ext) : Reads lim 8 (fun t => ⟨.ackId s e t, left⟩)
    fun id => (⟨.ackLen s e id [], left⟩, []) := fun _ _ => rfl

theorem reads_ackLen (s e : Bool) (id : Nat) (left : List Ext) : Reads lim 8 (fun t => ⟨.ackLen s e id t, left⟩)
    fun n => (⟨.msg, left⟩, [.ack s e id n]) := fun _ _ => rfl

theorem step_seg (s e : Bool) (id len : Nat) (left : List Ext) (got : Bytes) (b : UInt8) :
    step lim ⟨.seg s e id len got, left⟩ b = if (got ++ [b]).length = len then
      (⟨.msg, []⟩, [.data (got ++ [b]) s e id left]) else (⟨.seg s e id len (got ++ [b]), left⟩, []) := rfl

theorem step_item (o : Owner) (total count : Nat) (items : List Ext) (fl : UInt8) (t len : Nat) (left : List Ext)
    (got : Bytes) (b : UInt8) :
    step lim ⟨.item o total count items fl t len got, left⟩ b = if (got ++ [b]).length = len then
      afterItem o total count (items ++ [⟨fl, t, got ++ [b]⟩]) left
      else (⟨.item o total count items fl t len (got ++ [b]), left⟩, []) := rfl

theorem isNum_take (n : Nat) (w : Bytes) (h : n ≤ w.length) : IsNum n (w.take n) (beValue (w.take n)) :=
  ⟨by rw [List.length_take]; omega, rfl⟩

/-! ### One turn of the loop -/

/-- A turn that takes the bytes `w` behind its first byte amounts to single steps. -/
def Matches (lim : Nat) (r : Rx) (b : UInt8) (rest : Bytes) (t : (Rx × List Event) × Bytes) : Prop :=
  ∃ w, rest = w ++ t.2 ∧ Goes lim r (b :: w) t.1.2 t.1.1

theorem matches_len (s e : Bool) (id : Nat) (left : List Ext) (rest : Bytes) :
    ∃ w, rest = w ++ (lenShortcut lim s e id left rest).2 ∧
      Goes lim ⟨.segLen s e id [], left⟩ w (lenShortcut lim s e id left rest).1.2 (lenShortcut lim s e id left rest).1.1 := by
  unfold lenShortcut
  split
  · rename_i h
    exact ⟨rest.take 8, by simp, goes_num (reads_segLen s e id left) (by decide) (isNum_take 8 rest h)⟩
  · exact ⟨[], rfl, .nil _⟩

theorem matches_seg (b : UInt8) (left : List Ext) (rest : Bytes) :
    Matches lim ⟨.segFlags, left⟩ b rest (segShortcut lim b left rest) := by
  have h0 : Goes lim ⟨.segFlags, left⟩ [b] [] ⟨.segId (startFlag b) (endFlag b) [], left⟩ := Goes.one rfl
  unfold segShortcut
  simp only
  split
  · rename_i h8
    have h1 := goes_num (lim := lim) (reads_segId (startFlag b) (endFlag b) left) (by decide) (isNum_take 8 rest h8)
    have e1 : rest = rest.take 8 ++ rest.drop 8 := (List.take_append_drop 8 rest).symm
    generalize beValue (rest.take 8) = id at *
    generalize rest.take 8 = w1 at *
    generalize rest.drop 8 = r1 at *
    subst e1
    by_cases hs : startFlag b = true
    · simp only [hs, if_true] at h0 h1 ⊢
      split
      · rename_i h4
        have h2 := goes_num (lim := lim) (reads_segExtLen true (endFlag b) id left) (by decide) (isNum_take 4 r1 h4)
        have e2 : r1 = r1.take 4 ++ r1.drop 4 := (List.take_append_drop 4 r1).symm
        generalize beValue (r1.take 4) = n at *
        generalize r1.take 4 = w2 at *
        generalize r1.drop 4 = r2 at *
        subst e2
        unfold startItems at h2
        split
        · rename_i hn
          rw [if_pos hn] at h2
          exact ⟨w1 ++ w2, by simp, h0.append (h1.append h2)⟩
        · rename_i hn
          rw [if_neg hn] at h2
          obtain ⟨w3, e3, h3⟩ := matches_len (lim := lim) true (endFlag b) id [] r2
          exact ⟨w1 ++ (w2 ++ w3), by simpa using e3, h0.append (h1.append (h2.append h3))⟩
      · exact ⟨w1, rfl, h0.append h1⟩
    · simp only [hs] at h1 ⊢
      obtain ⟨w3, e3, h3⟩ := matches_len (lim := lim) (startFlag b) (endFlag b) id left r1
      simp only [hs] at h0 h3 e3
      exact ⟨w1 ++ w3, by simpa using e3, h0.append (h1.append h3)⟩
  · exact ⟨[], rfl, h0⟩

theorem matches_ack (b : UInt8) (left : List Ext) (rest : Bytes) :
    Matches lim ⟨.ackFlags, left⟩ b rest (ackShortcut b left rest) := by
  have h0 : Goes lim ⟨.ackFlags, left⟩ [b] [] ⟨.ackId (startFlag b) (endFlag b) [], left⟩ := Goes.one rfl
  unfold ackShortcut
  simp only
  split
  · rename_i h8
    have h1 := goes_num (lim := lim) (reads_ackId (startFlag b) (endFlag b) left) (by decide) (isNum_take 8 rest h8)
    split
    · rename_i h8'
      have h2 := goes_num (lim := lim) (reads_ackLen (startFlag b) (endFlag b) (beValue (rest.take 8)) left) (by decide)
        (isNum_take 8 (rest.drop 8) h8')
      exact ⟨rest.take 8 ++ (rest.drop 8).take 8, by rw [List.append_assoc, List.take_append_drop, List.take_append_drop],
        h0.append (h1.append h2)⟩
    · exact ⟨rest.take 8, by simp, h0.append h1⟩
  · exact ⟨[], rfl, h0⟩

/-- Copying many bytes. -/
theorem matches_bulk {p : Bytes → Rx} {f : Bytes → Rx × List Event} {len : Nat}
    (hp : ∀ got b, step lim (p got) b = if (got ++ [b]).length = len then f (got ++ [b]) else (p (got ++ [b]), []))
    (got : Bytes) (b : UInt8) (rest : Bytes) (hl : (got ++ [b]).length ≠ len) :
    Matches lim (p got) b rest
      ((p (got ++ [b] ++ rest.take (bulk len (got ++ [b]).length rest.length)), []),
        rest.drop (bulk len (got ++ [b]).length rest.length)) := by
  refine ⟨rest.take (bulk len (got ++ [b]).length rest.length), by simp, ?_⟩
  have h1 := goes_some (lim := lim) hp (b :: rest.take (bulk len (got ++ [b]).length rest.length)) got (by
    intro k hk hk' h
    simp only [List.length_append, List.length_cons, List.length_nil, List.length_take, bulk] at hl hk'
    split at hk' <;> omega)
  simpa using h1

/-- A turn of the loop is a sequence of steps. -/
theorem round_slow (r : Rx) (b : UInt8) (rest : Bytes) : Matches lim r b rest (round lim r b rest) := by
  have plain : (round lim r b rest) = (step lim r b, rest) → Matches lim r b rest (round lim r b rest) := by
    intro h
    rw [h]
    exact ⟨[], rfl, Goes.one rfl⟩
  obtain ⟨p, left⟩ := r
  cases p
  case segFlags => exact matches_seg b left rest
  case ackFlags => exact matches_ack b left rest
  case seg s e id len got =>
    by_cases hl : (got ++ [b]).length = len
    · exact plain (by simp only [round]; rw [if_pos hl])
    · have h := matches_bulk (lim := lim) (p := fun got => ⟨.seg s e id len got, left⟩)
        (f := fun got => (⟨.msg, []⟩, [.data got s e id left])) (step_seg s e id len left) got b rest hl
      simp only [round]
      rw [if_neg hl]
      exact h
  case item o total count items fl t len got =>
    by_cases hl : (got ++ [b]).length = len
    · exact plain (by simp only [round]; rw [if_pos hl])
    · have h := matches_bulk (lim := lim) (p := fun got => ⟨.item o total count items fl t len got, left⟩)
        (f := fun got => afterItem o total count (items ++ [⟨fl, t, got⟩]) left)
        (step_item o total count items fl t len left) got b rest hl
      simp only [round]
      rw [if_neg hl]
      exact h
  all_goals exact plain rfl

/-- The loop is a sequence of steps. -/
theorem loop_slow : ∀ (n : Nat) (r : Rx) (buf : Bytes), buf.length ≤ n → loop lim n r buf = slow lim r buf := by
  intro n
  induction n with
  | zero =>
    intro r buf h
    have : buf = [] := List.length_eq_zero_iff.1 (by omega)
    subst this
    rfl
  | succ n ih =>
    intro r buf h
    cases buf with
    | nil => rfl
    | cons b rest =>
      obtain ⟨w, h1, h2⟩ := round_slow (lim := lim) r b rest
      have h2' : slow lim r (b :: w) = _ := h2
      have hlen : (round lim r b rest).2.length ≤ rest.length := by
        have := congrArg List.length h1
        simp only [List.length_append] at this
        omega
      simp only [List.length_cons] at h
      have e : slow lim r (b :: rest) = slow lim r ((b :: w) ++ (round lim r b rest).2) := by
        rw [List.cons_append, ← h1]
      rw [e, slow_append, h2']
      simp only [loop]
      rw [ih _ _ (by omega)]

theorem feed_slow (r : Rx) (buf : Bytes) : feed lim r buf = slow lim r buf := loop_slow _ _ _ (Nat.le_refl _)

theorem feedAll_slow (bufs : List Bytes) : ∀ r : Rx, feedAll lim r bufs = slow lim r bufs.flatten := by
  induction bufs with
  | nil => intro r; rfl
  | cons buf bufs ih =>
    intro r
    simp only [feedAll, feed_slow, List.flatten_cons, slow_append, ih]

theorem flatten_bytes (s : Bytes) : (s.map fun b => [b]).flatten = s := by
  induction s with
  | nil => rfl
  | cons b bs ih => simp [ih]

theorem bytewise_eq (r : Rx) (s : Bytes) : bytewise lim r s = slow lim r s := by
  unfold bytewise
  rw [feedAll_slow, flatten_bytes]

end Hdtn.TcpclV4
