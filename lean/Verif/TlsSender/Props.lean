import Verif.TlsSender.Lemmas

/-!
C175 and C176: the queue of writes of a TCP connection, with and without TLS.
-/

namespace Hdtn.TlsSender

open Hdtn.TlsSender.Spec

/-- For the examples: a contact header, a session message, and two bundles. -/
def hello : El := ⟨1, .plain, [100, 116, 110, 33], true, false, false⟩
def sess : El := ⟨2, .secure, [7, 0, 30], true, false, false⟩
def bundleV : El := ⟨3, .secure, [1, 2, 3, 4], true, true, false⟩
def bundleZ : El := ⟨4, .secure, [5, 6], false, false, true⟩

/-! ### C175: everything is written in order, and reported once -/

/-- As long as no write failed, the elements that were sent are those that were written, whole and in order, and then those of the queue; exactly those that were
written were reported. After a write failed, one element was written in part and nothing after it; its callback got the error, and its bundle and all bundles that were sent
later, or will be, are reported as failed, each once and in order. -/
theorem C175_stream (c : Cfg) (evs : List Ev) :
    ((Tx.init.run c evs).err = false →
      ∃ ok, sends evs = ok ++ (Tx.init.run c evs).queue ∧ written (Tx.init.run c evs) = bytesOf ok ∧ (Tx.init.run c evs).notes = reports ok) ∧
    ((Tx.init.run c evs).err = true →
      ∃ ok e rest k, sends evs = ok ++ e :: rest ∧ (Tx.init.run c evs).queue = [] ∧ written (Tx.init.run c evs) = bytesOf ok ++ e.bytes.take k ∧
        (Tx.init.run c evs).notes = reports ok ++ (if e.callback then [.error e.tag] else []) ++ failures c (e :: rest)) := by
  have hw : ∀ (s : Tx) (l : List Bytes), s.wire.map Prod.snd = l → written s = l.flatten := by
    intro s l h
    rw [← h]; unfold written; rw [List.flatMap_def]
  have hb : ∀ l : List El, (l.map El.bytes).flatten = bytesOf l := by
    intro l; unfold bytesOf; rw [List.flatMap_def]
  rcases inv_run c evs Tx.init [] (inv_init c) with ⟨ok, hs, h⟩ | ⟨ok, e, rest, k, hs, h⟩
  · refine ⟨fun _ => ⟨ok, hs, ?_, h.notes⟩, fun he => by rw [h.err] at he; cases he⟩
    rw [hw _ _ h.wire, hb]
  · refine ⟨(fun he => by rw [h.err] at he; cases he), fun _ => ⟨ok, e, rest, k, hs, h.queue, ?_, ?_⟩⟩
    · rw [hw _ _ h.wire, List.flatten_append, hb]; simp
    · rw [h.notes]; simp [report]

example : (Tx.init.run ⟨true, true⟩ [.send hello, .done, .send sess, .send bundleV, .send bundleZ, .done, .broke 2, .send bundleV]).notes =
    [.sent 1, .sent 2, .error 3, .failedVec 3, .failedZmq 4, .failedVec 3] ∧
    written (Tx.init.run ⟨true, true⟩ [.send hello, .done, .send sess, .send bundleV, .send bundleZ, .done, .broke 2, .send bundleV]) = [100, 116, 110, 33, 7, 0, 30, 1, 2] := by
  decide +kernel

/-- No write is started during another, and no empty queue is read. -/
theorem C175_one_write (c : Cfg) (evs : List Ev) : (Tx.init.run c evs).undef = false := by
  rcases inv_run c evs Tx.init [] (inv_init c) with ⟨_, _, h⟩ | ⟨_, _, _, _, _, h⟩
  · exact h.undef
  · exact h.undef

/-- As long as no write failed, the first of the queue is being written. -/
theorem C175_going (c : Cfg) (evs : List Ev) (he : (Tx.init.run c evs).err = false) :
    (Tx.init.run c evs).writing.map Prod.fst = (Tx.init.run c evs).queue.head? := by
  rcases inv_run c evs Tx.init [] (inv_init c) with ⟨_, _, h⟩ | ⟨_, _, _, _, _, h⟩
  · exact h.writing
  · rw [h.err] at he; cases he

/-- If no write fails, everything that was sent is written when as many writes have ended as there are elements in the queue. -/
theorem C175_drain (c : Cfg) (evs : List Ev) (he : (Tx.init.run c evs).err = false) :
    let t := Tx.init.run c (evs ++ List.replicate (Tx.init.run c evs).queue.length .done)
    t.queue = [] ∧ written t = bytesOf (sends evs) ∧ t.notes = reports (sends evs) := by
  intro t
  have h := drain c _ (Tx.init.run c evs) ([] ++ sends evs) he (inv_run c evs Tx.init [] (inv_init c)) rfl
  rw [← run_append] at h
  obtain ⟨ok, h1, h2, h3⟩ := (C175_stream c (evs ++ List.replicate (Tx.init.run c evs).queue.length .done)).1 h.2
  have hsn : ∀ n, sends (List.replicate n Ev.done) = [] := by
    intro n
    induction n with
    | zero => rfl
    | succ n ih => rw [List.replicate_succ]; exact ih
  rw [sends_append, hsn, h.1, List.append_nil, List.append_nil] at h1
  rw [h1]
  exact ⟨h.1, h2, h3⟩

example : (Tx.init.run ⟨true, true⟩ [.send hello, .done, .send sess, .send bundleV]).queue.length = 2 ∧
    (Tx.init.run ⟨true, true⟩ [.send hello, .done, .send sess, .send bundleV]).err = false := by decide +kernel

/-! ### C176: what is to be secured goes through TLS -/

/-- As long as no write failed, each element that was written was written to the layer for which it was sent; after a write failed, so was also the element that was written in part.
Partial: only if elements are sent while none for the other layer is in the queue (see `C176_layer_violated`). -/
theorem C176_layer_partial (c : Cfg) (evs : List Ev) (hs : Steady c evs) :
    ((Tx.init.run c evs).err = false →
      ∃ ok, sends evs = ok ++ (Tx.init.run c evs).queue ∧ (Tx.init.run c evs).wire = ok.map fun e => (e.layer, e.bytes)) ∧
    ((Tx.init.run c evs).err = true →
      ∃ ok e rest k, sends evs = ok ++ e :: rest ∧ (Tx.init.run c evs).wire = (ok.map fun e => (e.layer, e.bytes)) ++ [(e.layer, e.bytes.take k)]) := by
  have hl := (lay_run c evs Tx.init [] (inv_init c) ⟨(fun w hw => by cases hw), rfl⟩ hs).wire
  rw [List.nil_append] at hl
  rcases inv_run c evs Tx.init [] (inv_init c) with ⟨ok, h0, h⟩ | ⟨ok, e, rest, k, h0, h⟩
  · rw [List.nil_append] at h0
    refine ⟨fun _ => ⟨ok, h0, ?_⟩, fun he => by rw [h.err] at he; cases he⟩
    have hlen := congrArg List.length h.wire
    rw [List.length_map, List.length_map] at hlen
    rw [h0, hlen, List.take_left'  rfl] at hl
    refine pairs_eq _ _ ?_ ?_
    · rw [hl]; simp
    · rw [h.wire]; simp
  · rw [List.nil_append] at h0
    refine ⟨(fun he => by rw [h.err] at he; cases he), fun _ => ⟨ok, e, rest, k, h0, ?_⟩⟩
    have hlen := congrArg List.length h.wire
    rw [List.length_map, List.length_append, List.length_map, List.length_singleton] at hlen
    have ht : (ok ++ e :: rest).take (ok.length + 1) = ok ++ [e] := by simp [List.take_append, List.take_of_length_le]
    rw [h0, hlen, ht] at hl
    refine pairs_eq _ _ ?_ ?_
    · rw [hl]; simp
    · rw [h.wire]; simp

example : Steady ⟨true, true⟩ [.send hello, .done, .send sess] := by
  intro a b e hab f hf
  match a, hab with
  | [], _ => cases hf
  | [_], hab => simp at hab
  | [x, y], hab =>
    simp only [List.cons_append, List.nil_append, List.cons.injEq] at hab
    rw [← hab.1, ← hab.2.1] at hf
    have : (Tx.init.run ⟨true, true⟩ [.send hello, .done]).queue = [] := by decide +kernel
    rw [this] at hf; cases hf
  | _ :: _ :: _ :: _, hab => simp at hab

/-- The claim without this condition is false: what is sent for TLS while the last element in the queue is being written without it, is written without TLS. -/
theorem C176_layer_violated (c : Cfg) (s : Tx) (a e : El) (he : s.err = false) (hp : s.inProgress = true) (hw : s.writing = some (a, .plain)) (hq : s.queue = [a]) :
    (Layer.plain, e.bytes) ∈ (s.run c [.send e, .done, .done]).wire := by
  simp [Tx.run, Tx.step, Tx.send, Tx.done, Tx.start, he, hp, hw, hq]

/-- This happens: a session is ended while the contact header is being written, after the peer's contact header has asked for TLS. The message is not secured. -/
example : (Tx.init.run ⟨true, true⟩ [.send hello, .send sess, .done, .done]).wire = [(.plain, [100, 116, 110, 33]), (.plain, [7, 0, 30])] ∧ sess.layer = .secure := by
  decide +kernel

/-- When nothing is being written, the layer is that of the element. -/
theorem C176_idle (c : Cfg) (evs : List Ev) (he : (Tx.init.run c evs).err = false) (hq : (Tx.init.run c evs).queue = []) (e : El) :
    (Tx.init.run c (evs ++ [.send e])).writing = some (e, e.layer) ∧
      (Tx.init.run c (evs ++ [.send e, .done])).wire = (Tx.init.run c evs).wire ++ [(e.layer, e.bytes)] := by
  rw [run_append, run_append]
  have hp : (Tx.init.run c evs).inProgress = false := by
    rcases inv_run c evs Tx.init [] (inv_init c) with ⟨_, _, h⟩ | ⟨_, _, _, _, _, h⟩
    · rw [h.prog, hq]; rfl
    · rw [h.err] at he; cases he
  generalize Tx.init.run c evs = s at *
  simp [Tx.run, Tx.step, Tx.send, Tx.done, Tx.start, he, hp, hq]

example : (Tx.init.run ⟨true, true⟩ [.send hello, .done]).queue = [] ∧ (Tx.init.run ⟨true, true⟩ [.send hello, .done]).err = false := by decide +kernel

end Hdtn.TlsSender
