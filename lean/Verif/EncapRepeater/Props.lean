import Verif.EncapRepeater.Lemmas
import Verif.Encap.Props

/-!
C165 and C166: the repeater for encapsulation packets.
-/

namespace Hdtn.EncapRepeater

open Hdtn.EncapRepeater.Spec

/-- Two packets from stream 0, the second while the first is written. -/
def example1 : List Ev :=
  [.connection false true, .packet false [0xf1, 3, 7], .connection true true, .packet false [0xf1, 3, 9], .written true none, .packet true [0xf1, 3, 5]]

/-! ### C165: unchanged, in order and once -/

/-- If no write fails, what was written is one packet after the other, whole, in the order in which they came, each once; the others wait. Missing: failing
writes. -/
theorem C165_partial (n : Nat) (evs : List Ev) (i : Bool) (h : NoError (!i) evs) :
    let r := (Repeater.init n).run evs
    ∃ m, writes r i = (came r i).take m ∧ waiting r i = (came r i).drop m := by
  intro r
  have hi : Inv (r.dir i) := inv n evs i
  have he : (r.dir i).err = false := by
    show (((Repeater.init n).run evs).dir i).err = false
    rw [run_dir, err_run _ (noError_dir i evs h)]; rfl
  obtain ⟨a, b⟩ := hi.good he
  refine ⟨(r.dir i).sent.length, ?_, ?_⟩
  · unfold writes came; rw [a, b, List.take_left]
  · unfold waiting came
    conv => rhs; rw [a]
    rw [List.drop_left]

example : NoError true example1 := by intro k; simp [example1]
example : let r := (Repeater.init 5).run example1
    came r false = [[0xf1, 3, 7], [0xf1, 3, 9]] ∧ writes r false = [[0xf1, 3, 7]] ∧ waiting r false = [[0xf1, 3, 9]] ∧ waiting r true = [[0xf1, 3, 5]] := by decide +kernel

/-- Whatever happens, the writes are packets in the order in which they came, each whole; only the last can be cut, and then no write follows. -/
theorem C165_whole (n : Nat) (evs : List Ev) (i : Bool) :
    let r := (Repeater.init n).run evs
    ∃ m, writes r i = (came r i).take m ∨ ∃ p k, (came r i)[m]? = some p ∧ writes r i = (came r i).take m ++ [p.take k] := by
  intro r
  have hi : Inv (r.dir i) := inv n evs i
  refine ⟨(r.dir i).sent.length, ?_⟩
  unfold writes came
  cases he : (r.dir i).err with
  | false =>
    left
    obtain ⟨a, b⟩ := hi.good he
    rw [a, b, List.take_left]
  | true =>
    right
    obtain ⟨c, p, k, a, b, b2, b3⟩ := hi.bad he
    refine ⟨p, k, ?_, ?_⟩
    · rw [a]; simp
    · rw [b]
      conv => rhs; rw [a]
      rw [List.take_left]

/-- Whatever happens, the bytes that go out are the first of those that came. -/
theorem C165_bytes (n : Nat) (evs : List Ev) (i : Bool) :
    let r := (Repeater.init n).run evs
    wentOut r i <+: (came r i).flatten := by
  intro r
  obtain ⟨m, h⟩ := C165_whole n evs i
  have hw : wentOut r i = (writes r i).flatten := rfl
  rw [hw]
  rcases h with h | ⟨p, k, hp, h⟩
  · rw [show writes r i = (came r i).take m from h]
    conv => rhs; rw [← List.take_append_drop m (came r i)]
    rw [List.flatten_append]
    exact List.prefix_append _ _
  · rw [show writes r i = (came r i).take m ++ [p.take k] from h]
    have hp : (came r i)[m]? = some p := hp
    have hd : (came r i).drop m = p :: (came r i).drop (m + 1) := by
      obtain ⟨hl, hx⟩ := List.getElem?_eq_some_iff.mp hp
      rw [List.drop_eq_getElem_cons hl, hx]
    have hk : p = p.take k ++ p.drop k := (List.take_append_drop k p).symm
    refine ⟨p.drop k ++ ((came r i).drop (m + 1)).flatten, ?_⟩
    conv => rhs; rw [← List.take_append_drop m (came r i), hd, List.flatten_append, List.flatten_cons]
    rw [List.flatten_append, List.append_assoc, List.flatten_cons, List.flatten_nil, List.append_nil, ← List.append_assoc (p.take k), ← hk]

/-- The packets from a stream are packets that it brought; none comes from the other. -/
theorem C165_came (n : Nat) (evs : List Ev) (i : Bool) : (came ((Repeater.init n).run evs) i).Sublist (brought i evs) := by
  obtain ⟨l, h1, h2⟩ := got_brought i evs (Repeater.init n)
  unfold came
  rw [h2]
  simpa [Repeater.init, Dir.init] using h1

example : brought false example1 = [[0xf1, 3, 7], [0xf1, 3, 9]] ∧ brought true example1 = [[0xf1, 3, 5]] := by decide +kernel

/-- With the reader of the streams (C120): if a peer sends framed payloads on a connection, the bytes that go out are the first of the bytes that it sent. -/
theorem C165_stream (kind : Encap.Kind) (hk : kind ≠ .idle) (sent : List (Bytes × Bytes)) (hs : ∀ x ∈ sent, Encap.Spec.Framed kind x)
    (ops : List Encap.Op) (hc : Encap.Spec.connected ops) (hr : Encap.Spec.received ops <+: Encap.Spec.stream sent)
    (n : Nat) (evs : List Ev) (i : Bool)
    (hg : came ((Repeater.init n).run evs) i = ((Encap.Rx.connected kind true false).run ops).out.map fun p => p.buffer) :
    wentOut ((Repeater.init n).run evs) i <+: Encap.Spec.stream sent := by
  have h1 := C165_bytes n evs i
  obtain ⟨k, _, h2⟩ := Encap.C120_in_order_partial kind true false hk sent hs ops hc hr
  rw [h2] at hg
  simp only at h1
  rw [hg] at h1
  refine h1.trans ?_
  have : ((List.map (fun x : Bytes × Bytes => Encap.Spec.handed true x.1 x.2) (sent.take k)).map fun p => p.buffer) = (sent.take k).map fun x => x.1 ++ x.2 := by
    rw [List.map_map]; rfl
  rw [this]
  unfold Encap.Spec.stream
  conv => rhs; rw [← List.take_append_drop k sent, List.map_append, List.flatten_append]
  exact List.prefix_append _ _

example : Encap.Spec.Framed .bp ([0xf1, 3], [7]) := ⟨by decide, by decide⟩
example : came ((Repeater.init 5).run [.connection false true, .packet false [0xf1, 3, 7]]) false =
    ((Encap.Rx.connected .bp true false).run [.bytes [0xf1, 3, 7]]).out.map fun p => p.buffer := by decide +kernel

/-- False: after a write has failed, nothing is ever written on that stream, however often it is connected again; and the packet of that write is lost. -/
theorem C165_error_violated (n : Nat) (evs : List Ev) (i : Bool) (k : Nat) (evs' : List Ev)
    (hw : (((Repeater.init n).run evs).dir i).writing.isSome = true) :
    let r := (Repeater.init n).run evs
    let r' := (r.step (.written (!i) (some k))).run evs'
    ∃ p, (waiting r i).head? = some p ∧ writes r' i = writes r i ++ [p.take k] ∧ (waiting r i).length ≤ (waiting r' i).length + 1 := by
  intro r r'
  have hi : Inv (r.dir i) := inv n evs i
  obtain ⟨c, hc⟩ := Option.isSome_iff_exists.mp hw
  have hc : (r.dir i).writing = some c := hc
  obtain ⟨hq, hn⟩ := hi.busy c hc
  obtain ⟨p, queue, hp⟩ := List.exists_cons_of_ne_nil hq
  have hs : (r.step (.written (!i) (some k))).dir i = (r.dir i).step (.written (some k)) := by
    rw [step_dir]; simp [toDir]
  have hd : ((r.dir i).step (.written (some k))).err = true ∧ ((r.dir i).step (.written (some k))).wire = (r.dir i).wire ++ [(c, p.take k)] ∧
      ((r.dir i).step (.written (some k))).queue = queue := by
    simp only [Dir.step, Dir.handleSend, hc, hp]
    rw [(resume_fields _).2.2.2.2.1, (resume_fields _).2.2.2.1, (resume_fields _).1, (trySend_fields _).2.2.2.2.1, (trySend_fields _).2.2.2.1, (trySend_fields _).1]
    exact ⟨rfl, rfl, rfl⟩
  have hw2 : ((r.dir i).step (.written (some k))).writing = none := by
    cases hx : ((r.dir i).step (.written (some k))).writing with
    | none => rfl
    | some c' =>
      have := ((inv_step _ (.written (some k)) hi).busy c' hx).2
      rw [hd.1] at this; cases this
  obtain ⟨a, b⟩ := dead_run (evs'.filterMap (toDir i)) _ hd.1 hw2
  have hr : r'.dir i = ((r.dir i).step (.written (some k))).run (evs'.filterMap (toDir i)) := by
    show (((r.step (.written (!i) (some k))).run evs').dir i) = _
    rw [run_dir, hs]
  refine ⟨p, by simp [waiting, hp], ?_, ?_⟩
  · unfold writes; rw [hr, a, hd.2.1]; simp
  · unfold waiting
    rw [hd.2.2] at b
    rw [hr, hp]
    simpa using b

example : (((Repeater.init 5).run example1).dir false).writing.isSome = true := by decide +kernel

/-! ### C166: what is kept, and that it goes on -/

/-- At most five packets from a stream wait, if the stream is connected at most once. Missing: streams that are connected again. -/
theorem C166_bound_partial (n : Nat) (evs : List Ev) (i : Bool) (h : Once i evs) : (waiting ((Repeater.init n).run evs) i).length ≤ 5 := by
  unfold waiting
  rw [run_dir]
  refine bound_run _ _ 0 (inv_init n) ⟨by simp [Dir.init, Repeater.init], by simp [Dir.init, Repeater.init], by simp [Dir.init, Repeater.init]⟩ ?_
  rw [once_dir]
  unfold Once at h
  omega

example : Once false example1 := by unfold Once; decide +kernel

/-- False: each time that a stream is connected again one more packet is read, whatever waits; there is no bound. -/
theorem C166_bound_violated (n : Nat) (p : Bytes) (m : Nat) : ∃ evs, (waiting ((Repeater.init n).run evs) false).length = m := by
  refine ⟨(List.replicate m [Ev.connection false true, .packet false p]).flatten, ?_⟩
  unfold waiting
  rw [run_dir]
  have : ((List.replicate m [Ev.connection false true, .packet false p]).flatten.filterMap (toDir false)) =
      (List.replicate m [DirEv.source true, .packet p]).flatten := by
    induction m with
    | zero => rfl
    | succ m ih =>
      rw [List.replicate_succ, List.replicate_succ, List.flatten_cons, List.flatten_cons, List.filterMap_append, ih]
      rfl
  rw [this, grow p m _ rfl m rfl]
  simp [Repeater.init, Dir.init]

/-- False: the configured size of the queue is not used; five packets wait with any of them. -/
theorem C166_size_violated (n : Nat) (p : Bytes) : ∃ evs, Once false evs ∧ (waiting ((Repeater.init n).run evs) false).length = 5 := by
  refine ⟨.connection false true :: List.replicate 5 (.packet false p), ?_, ?_⟩
  · unfold Once
    rw [List.countP_cons, List.countP_replicate]
    simp
  · simp [waiting, run_dir, toDir, List.replicate, Dir.run, Dir.step, Dir.source, Dir.startRead, Dir.packet, Dir.resume, Dir.trySend, Repeater.init, Dir.init]

/-- A stream that is connected is read unless five packets wait, also after errors: reading is never forgotten. -/
theorem C166_awake (n : Nat) (evs : List Ev) (i : Bool) (h : up i evs = true) (h2 : (waiting ((Repeater.init n).run evs) i).length < 5) :
    (((Repeater.init n).run evs).dir i).reading = true := by
  have hi : Inv (((Repeater.init n).run evs).dir i) := inv n evs i
  have hu : (((Repeater.init n).run evs).dir i).rxUp = true := by
    rw [(ups_run i evs (Repeater.init n)).1]; exact h
  cases hr : (((Repeater.init n).run evs).dir i).reading with
  | true => rfl
  | false =>
    have := hi.awake hu hr
    unfold waiting at h2; omega

example : up false example1 = true ∧ (waiting ((Repeater.init 5).run example1) false).length < 5 := by decide +kernel

/-- While packets wait and the other stream is connected, a write is in progress. Missing: failed writes. -/
theorem C166_going_partial (n : Nat) (evs : List Ev) (i : Bool) (h : NoError (!i) evs) (h1 : up (!i) evs = true)
    (h2 : waiting ((Repeater.init n).run evs) i ≠ []) : (((Repeater.init n).run evs).dir i).writing.isSome = true := by
  have hi : Inv (((Repeater.init n).run evs).dir i) := inv n evs i
  refine hi.going h2 ?_ ?_
  · rw [(ups_run i evs (Repeater.init n)).2]; exact h1
  · rw [run_dir, err_run _ (noError_dir i evs h)]; rfl

example : up true example1 = true ∧ waiting ((Repeater.init 5).run example1) false ≠ [] := by decide +kernel

/-- As soon as as many writes ended as packets waited, everything that came went out. Missing: failed writes. -/
theorem C166_drain_partial (n : Nat) (evs : List Ev) (i : Bool) (h : NoError (!i) evs) (h1 : up (!i) evs = true) :
    let r := (Repeater.init n).run evs
    let r' := r.run (List.replicate (waiting r i).length (.written (!i) none))
    writes r' i = came r i ∧ came r' i = came r i ∧ waiting r' i = [] := by
  intro r r'
  have hi : Inv (r.dir i) := inv n evs i
  have ht : (r.dir i).txUp = true := by
    show (((Repeater.init n).run evs).dir i).txUp = true
    rw [(ups_run i evs (Repeater.init n)).2]; exact h1
  have he : (r.dir i).err = false := by
    show (((Repeater.init n).run evs).dir i).err = false
    rw [run_dir, err_run _ (noError_dir i evs h)]; rfl
  have hr : r'.dir i = (r.dir i).run (List.replicate (r.dir i).queue.length (.written none)) := by
    show ((r.run _).dir i) = _
    rw [run_dir]
    congr 1
    unfold waiting
    generalize (r.dir i).queue.length = m
    induction m with
    | zero => rfl
    | succ m ih => rw [List.replicate_succ, List.replicate_succ, List.filterMap_cons, ih]; simp [toDir]
  obtain ⟨a, b, c, _⟩ := drain (r.dir i).queue.length (r.dir i) hi ht he (Nat.le_refl _)
  rw [← hr] at a b c
  have hi' : Inv (r'.dir i) := by rw [hr]; exact inv_run _ _ hi
  obtain ⟨x, y⟩ := hi'.good c
  refine ⟨?_, b, a⟩
  unfold writes came
  rw [y, ← b, x, a, List.append_nil]

/-- False: after a failed write, a stream from which five packets wait is never read again, unless it is connected again. -/
theorem C166_stuck_violated (n : Nat) (evs : List Ev) (i : Bool) (h1 : (((Repeater.init n).run evs).dir i).err = true)
    (h2 : (((Repeater.init n).run evs).dir i).reading = false) (evs' : List Ev) (h : Ev.connection i true ∉ evs') :
    came (((Repeater.init n).run evs).run evs') i = came ((Repeater.init n).run evs) i := by
  have hi : Inv (((Repeater.init n).run evs).dir i) := inv n evs i
  unfold came
  rw [run_dir i evs']
  refine stopped_run _ ?_ _ h1 ?_ h2
  · intro hk
    obtain ⟨e, he, hx⟩ := List.mem_filterMap.mp hk
    cases e with
    | packet j p => simp only [toDir] at hx; split_ifs at hx <;> cases hx
    | written j er => simp only [toDir] at hx; split_ifs at hx <;> cases hx
    | connection j u =>
      simp only [toDir] at hx
      split_ifs at hx with hj
      · cases hx; subst hj; exact h he
      · cases hx
  · cases hw : (((Repeater.init n).run evs).dir i).writing with
    | none => rfl
    | some c =>
      have := (hi.busy c hw).2
      rw [h1] at this; cases this

/-- A failed write, and five packets behind it. -/
def example2 : List Ev := [.connection false true, .connection true true, .packet false [0xf1, 3, 7], .written true (some 1), .packet false [0xf1, 3, 7],
  .packet false [0xf1, 3, 7], .packet false [0xf1, 3, 7], .packet false [0xf1, 3, 7], .packet false [0xf1, 3, 7]]

example : (((Repeater.init 5).run example2).dir false).err = true ∧ (((Repeater.init 5).run example2).dir false).reading = false := by decide +kernel

end Hdtn.EncapRepeater
