import Verif.LtpReceiver.Spec
import Verif.LtpReport.Props
import Verif.FragmentSet.Props

namespace Hdtn.LtpReceiver
open Hdtn.FragmentSet Hdtn.LtpReport

/-! ### Reports -/

theorem populate_spec (s : List Frag) (hs : Canonical s) (hne : s ≠ []) (lower upper : Nat)
    (hlu : lower < upper) (hu : upper < 2 ^ 64 - 1) :
    ∃ r, populate s lower upper = some r ∧ r.lower = lower ∧ r.upper = upper ∧ r.WellFormed ∧
      ∀ x, r.Claims x ↔ r.InScope x ∧ Covers s x := by
  obtain ⟨f, t, rfl⟩ := List.exists_cons_of_ne_nil hne
  obtain ⟨l, hl⟩ : ∃ l, (f :: t).getLast? = some l := ⟨_, List.getLast?_eq_some_getLast (by simp)⟩
  have h := (C11_report_claims_exactly (f :: t) hs lower upper (by omega)).2 f l rfl hl
  have h1 : requestedScope f l lower upper = (lower, upper) := by
    rw [requestedScope, if_neg (by omega), if_neg (by omega)]
  simp only [h1] at h
  exact h.2 hlu

theorem tiles_bounds (cur last : Nat) (ps : List Report) (hw : ∀ p ∈ ps, p.lower < p.upper)
    (h : Tiles cur last ps) : ∀ p ∈ ps, cur ≤ p.lower ∧ p.upper ≤ last := by
  induction ps generalizing cur with
  | nil => simp
  | cons r rs ih =>
    cases rs with
    | nil =>
      obtain ⟨h1, h2⟩ := h
      intro p hp
      simp only [List.mem_singleton] at hp
      subst hp; omega
    | cons r' rs =>
      obtain ⟨h1, h2⟩ := h
      have h3 := ih r.upper (fun p hp => hw p (List.mem_cons_of_mem _ hp)) h2
      have hr := hw r (by simp)
      intro p hp
      rcases List.mem_cons.1 hp with rfl | hp
      · have := h3 r' (by simp)
        have := hw r' (by simp)
        omega
      · have := h3 p hp; omega

/-- What the reports issued for a scope are like. -/
structure Issued (cfg : Cfg) (frags : List Frag) (lower upper : Nat) (ps : List Report) : Prop where
  tiles : Tiles lower upper ps
  each : ∀ p ∈ ps, p.WellFormed ∧ p.claims.length ≤ cfg.maxClaims ∧
    ∀ x, p.Claims x ↔ p.InScope x ∧ Covers frags x

theorem Issued.ne_nil {cfg : Cfg} {frags : List Frag} {lower upper : Nat} {ps : List Report}
    (h : Issued cfg frags lower upper ps) : ps ≠ [] := by
  rintro rfl; exact h.tiles

theorem Issued.bounds {cfg : Cfg} {frags : List Frag} {lower upper : Nat} {ps : List Report}
    (h : Issued cfg frags lower upper ps) : ∀ p ∈ ps, lower ≤ p.lower ∧ p.upper ≤ upper :=
  tiles_bounds _ _ _ (fun p hp => (h.each p hp).1.1) h.tiles

theorem issue_spec (cfg : Cfg) (hc : cfg.Sane) (st : State) (hs : Canonical st.frags)
    (hne : st.frags ≠ []) (csn lower upper : Nat) (sec : Bool) (hlu : lower < upper)
    (hu : upper < 2 ^ 64 - 1) :
    ∃ ps, Issued cfg st.frags lower upper ps ∧
      issue cfg st csn lower upper sec =
        some (ps.foldl (issueOne csn sec) st, ps.map fun _ => Eff.producible) := by
  obtain ⟨r, hr, hl, hup, hw, hx⟩ := populate_spec st.frags hs hne lower upper hlu hu
  simp only [issue, hr]
  split
  · rename_i hlen
    have hcl : r.claims ≠ [] := by
      intro h; rw [h] at hlen; simp at hlen
    obtain ⟨ps, hp1, hp2, hp3, hp4, -⟩ := C11_split r hw (by omega) hcl cfg.maxClaims hc.claims
    rw [hp1]
    refine ⟨ps, ⟨by rw [← hl, ← hup]; exact hp2, fun p hp => ?_⟩, rfl⟩
    refine ⟨(hp3 p hp).1, (hp3 p hp).2.2, fun x => ?_⟩
    have hb := tiles_bounds _ _ _ (fun p hp => (hp3 p hp).1.1) hp2 p hp
    have hscope : p.Claims x → p.InScope x := by
      rintro ⟨c, hc, h1, h2⟩
      have := ((hp3 p hp).1.2.1 c hc).2
      simp only [Report.InScope]; omega
    constructor
    · intro h
      have hi := hscope h
      exact ⟨hi, ((hx x).1 ((hp4 p hp x hi).1 h)).2⟩
    · rintro ⟨hi, hcov⟩
      refine (hp4 p hp x hi).2 ((hx x).2 ⟨?_, hcov⟩)
      simp only [Report.InScope] at hi ⊢; omega
  · rename_i hlen
    refine ⟨[r], ⟨⟨hl, hup⟩, ?_⟩, by simp⟩
    intro p hp
    simp only [List.mem_singleton] at hp
    subst hp
    exact ⟨hw, by omega, hx⟩

/-- What issuing reports does to the state. -/
theorem issueAll_frame (csn : Nat) (sec : Bool) (ps : List Report) (st : State) :
    ∃ n s l q, ps.foldl (issueOne csn sec) st =
        { st with nextRsn := n, sent := s, lastPrimary := l, queue := q } ∧
      (∀ e ∈ st.sent, e ∈ s) ∧ (∀ e ∈ s, e ∈ st.sent ∨ (e.2.1 = csn ∧ e.2.2 ∈ ps)) ∧
      (∀ e ∈ st.queue, e ∈ q) ∧ (∀ e ∈ q, e ∈ st.queue ∨ ∃ c ∈ s, c.1 = e.1) ∧
      (l = st.lastPrimary ∨ ∃ c ∈ s, l = some c.1) := by
  induction ps generalizing st with
  | nil =>
    exact ⟨st.nextRsn, st.sent, st.lastPrimary, st.queue, rfl, fun e h => h, fun e h => .inl h,
      fun e h => h, fun e h => .inl h, .inl rfl⟩
  | cons p ps ih =>
    obtain ⟨n, s, l, q, h1, h2, h3, h4, h5, h6⟩ := ih (issueOne csn sec st p)
    have hkey : ∃ c ∈ (issueOne csn sec st p).sent, c.1 = st.nextRsn := by
      simp only [issueOne]
      split
      · rename_i h
        obtain ⟨e, he, h⟩ := List.any_eq_true.1 h
        exact ⟨e, he, by simpa using h⟩
      · exact ⟨(st.nextRsn, csn, p), by simp, rfl⟩
    obtain ⟨c, hc, hce⟩ := hkey
    refine ⟨n, s, l, q, by rw [List.foldl_cons, h1]; rfl, ?_, ?_, ?_, ?_, ?_⟩
    · intro e he
      refine h2 e ?_
      simp only [issueOne]; split
      · exact he
      · exact List.mem_append_left _ he
    · intro e he
      rcases h3 e he with h | ⟨h, h'⟩
      · simp only [issueOne] at h
        split at h
        · exact .inl h
        · rcases List.mem_append.1 h with h | h
          · exact .inl h
          · simp only [List.mem_singleton] at h
            subst h; exact .inr ⟨rfl, by simp⟩
      · exact .inr ⟨h, List.mem_cons_of_mem _ h'⟩
    · intro e he
      exact h4 e (by simp only [issueOne]; exact List.mem_append_left _ he)
    · intro e he
      rcases h5 e he with h | h
      · simp only [issueOne] at h
        rcases List.mem_append.1 h with h | h
        · exact .inl h
        · simp only [List.mem_singleton] at h
          subst h
          exact .inr ⟨c, h2 c hc, hce⟩
      · exact .inr h
    · rcases h6 with h | h
      · simp only [issueOne] at h
        split at h
        · exact .inl h
        · exact .inr ⟨c, h2 c hc, by rw [h, hce]⟩
      · exact .inr h

/-! ### What was issued -/

/-- A report as it should be when these ranges have been received. -/
def Exact (cfg : Cfg) (frags : List Frag) (r : Report) : Prop :=
  r.WellFormed ∧ r.claims.length ≤ cfg.maxClaims ∧ ∀ x, r.Claims x ↔ r.InScope x ∧ Covers frags x

/-- The part of the state that issuing a report changes. -/
structure Out where
  nextRsn : Nat
  sent : List (Nat × Nat × Report)
  lastPrimary : Option Nat
  queue : List (Nat × Nat)

def State.out (st : State) : Out := ⟨st.nextRsn, st.sent, st.lastPrimary, st.queue⟩

/-- A report about to be issued: checkpoint serial number, whether it answers a checkpoint that
answered a report, and the report. -/
structure Item where
  checkpoint : Nat
  secondary : Bool
  report : Report

def Out.add (o : Out) (i : Item) : Out where
  nextRsn := (o.nextRsn + 1) % U64
  sent := if o.sent.any (fun e => e.1 == o.nextRsn) then o.sent
    else o.sent ++ [(o.nextRsn, i.checkpoint, i.report)]
  lastPrimary := if i.secondary then o.lastPrimary else some o.nextRsn
  queue := o.queue ++ [(o.nextRsn, 1)]

theorem issueAll_out (csn : Nat) (sec : Bool) (ps : List Report) (st : State) :
    (ps.foldl (issueOne csn sec) st).out =
      (ps.map fun r => (⟨csn, sec, r⟩ : Item)).foldl Out.add st.out := by
  induction ps generalizing st with
  | nil => rfl
  | cons p ps ih => rw [List.foldl_cons, ih, List.map_cons, List.foldl_cons]; rfl

/-- Between two states these reports were issued. -/
def Grew (cfg : Cfg) (frags : List Frag) (st st' : State) (items : List Item) : Prop :=
  (∀ i ∈ items, Exact cfg frags i.report) ∧ st'.out = items.foldl Out.add st.out

theorem grew_refl (cfg : Cfg) (frags : List Frag) (st st' : State) (h : st'.out = st.out) :
    Grew cfg frags st st' [] := ⟨by simp, h⟩

theorem Grew.trans {cfg : Cfg} {frags : List Frag} {a b c : State} {i j : List Item}
    (h : Grew cfg frags a b i) (h' : Grew cfg frags b c j) : Grew cfg frags a c (i ++ j) := by
  refine ⟨fun k hk => ?_, by rw [List.foldl_append, ← h.2, h'.2]⟩
  rcases List.mem_append.1 hk with hk | hk
  · exact h.1 k hk
  · exact h'.1 k hk

theorem Grew.left {cfg : Cfg} {frags : List Frag} {a a' b : State} {i : List Item}
    (h : Grew cfg frags a b i) (e : a'.out = a.out) : Grew cfg frags a' b i :=
  ⟨h.1, by rw [e]; exact h.2⟩

theorem Grew.right {cfg : Cfg} {frags : List Frag} {a b b' : State} {i : List Item}
    (h : Grew cfg frags a b i) (e : b'.out = b.out) : Grew cfg frags a b' i :=
  ⟨h.1, by rw [e]; exact h.2⟩

/-! ### Bytes -/

theorem resize_length (d : Bytes) (n : Nat) : (resize d n).length = n := by
  simp only [resize]; split
  · rw [List.length_take]; omega
  · rw [List.length_append, List.length_replicate]; omega

theorem resize_get (d : Bytes) (n x : Nat) (hn : d.length ≤ n) (hx : x < d.length) :
    (resize d n)[x]? = d[x]? := by
  simp only [resize]; split
  · rw [List.take_of_length_le (by omega)]
  · rw [List.getElem?_append_left hx]

theorem memcpyTo_spec (dst s : Bytes) (offset length : Nat) (hs : s.length = length)
    (hd : offset + length ≤ dst.length) :
    ∃ d, memcpyTo dst offset (some s) length = some d ∧ d.length = dst.length ∧
      ∀ x, d[x]? = if offset ≤ x ∧ x < offset + length then s[x - offset]? else dst[x]? := by
  refine ⟨dst.take offset ++ s.take length ++ dst.drop (offset + length), ?_, ?_, fun x => ?_⟩
  · rw [memcpyTo, if_neg (by omega)]
  · simp only [List.length_append, List.length_take, List.length_drop]; omega
  · have h1 : (dst.take offset).length = offset := by rw [List.length_take]; omega
    have h2 : s.take length = s := List.take_of_length_le (by omega)
    rw [h2]
    split
    · rw [List.append_assoc, List.getElem?_append_right (by omega), h1,
        List.getElem?_append_left (by omega)]
    · by_cases hx : x < offset
      · rw [List.append_assoc, List.getElem?_append_left (by omega), List.getElem?_take_of_lt hx]
      · rw [List.getElem?_append_right (by rw [List.length_append]; omega), List.length_append, h1,
          List.getElem?_drop]
        congr 1; omega

/-! ### Waiting reports -/

/-- No two waiting reports overlap, and they are in order. -/
def Ordered (ps : List Pending) : Prop :=
  (∀ p ∈ ps, p.range.b ≤ p.range.e) ∧ ps.Pairwise fun p q => p.range.e < q.range.b

theorem findPending_some (ps : List Pending) (key : Frag) (p : Pending)
    (h : findPending ps key = some p) : p ∈ ps ∧ p.range.ltAbut key = false ∧
      key.ltAbut p.range = false := by
  rw [findPending] at h
  split at h
  · cases h
  · rename_i q qs hq
    split at h
    · cases h
    · rename_i hk
      simp only [Option.some.injEq] at h
      subst h
      have hmem : q ∈ ps.dropWhile fun p => p.range.ltAbut key := by rw [hq]; simp
      refine ⟨(List.dropWhile_sublist _).mem hmem, ?_, by simpa using hk⟩
      have := List.head?_dropWhile_not (fun p : Pending => p.range.ltAbut key) ps
      rw [hq] at this
      simpa using this

theorem insertPending_some (ps : List Pending) (p : Pending) (qs : List Pending)
    (h : insertPending ps p = some qs) : ∃ a b, ps = a ++ b ∧ qs = a ++ p :: b ∧
      (∀ q ∈ a, q.range.e < p.range.b) ∧ ∀ q ∈ b.head?, p.range.e < q.range.b := by
  have hsplit : ps.takeWhile (fun q => q.range.ltAbut p.range) ++
      ps.dropWhile (fun q => q.range.ltAbut p.range) = ps := List.takeWhile_append_dropWhile
  have htake : ∀ q ∈ ps.takeWhile (fun q => q.range.ltAbut p.range), q.range.e < p.range.b := by
    intro q hq
    have h := List.all_takeWhile (l := ps) (p := fun q : Pending => q.range.ltAbut p.range)
    have := List.all_eq_true.1 h q hq
    simpa [Frag.ltAbut] using this
  rw [insertPending] at h
  split at h
  · rename_i hd
    simp only [Option.some.injEq] at h
    rw [hd, List.append_nil] at hsplit
    rw [hsplit] at htake
    exact ⟨ps, [], by simp, h.symm, htake, by simp⟩
  · rename_i q t hd
    split at h
    · rename_i hlt
      simp only [Option.some.injEq] at h
      refine ⟨_, _, hsplit.symm, h.symm, htake, ?_⟩
      rw [hd]
      simpa [Frag.ltAbut] using hlt
    · cases h

theorem insertPending_ordered (ps : List Pending) (p : Pending) (qs : List Pending)
    (hp : p.range.b ≤ p.range.e) (ho : Ordered ps) (h : insertPending ps p = some qs) :
    Ordered qs ∧ ∀ q, q ∈ qs ↔ q = p ∨ q ∈ ps := by
  obtain ⟨a, b, rfl, rfl, ha, hb⟩ := insertPending_some ps p qs h
  obtain ⟨h1, h2⟩ := ho
  obtain ⟨h3, h4, h5⟩ := List.pairwise_append.1 h2
  have hb' : ∀ q ∈ b, p.range.e < q.range.b := by
    cases b with
    | nil => simp
    | cons q t =>
      have hq := hb q (by simp)
      intro q' hq'
      rcases List.mem_cons.1 hq' with rfl | hq'
      · exact hq
      · have := (List.pairwise_cons.1 h4).1 q' hq'
        have := h1 q (by simp)
        omega
  have hmem : ∀ q, q ∈ a ++ p :: b ↔ q = p ∨ q ∈ a ++ b := by
    intro q
    simp only [List.mem_append, List.mem_cons]
    constructor
    · rintro (h | h | h)
      · exact .inr (.inl h)
      · exact .inl h
      · exact .inr (.inr h)
    · rintro (h | h | h)
      · exact .inr (.inl h)
      · exact .inl h
      · exact .inr (.inr h)
  refine ⟨⟨fun q hq => ?_, ?_⟩, hmem⟩
  · rcases (hmem q).1 hq with rfl | hq
    · exact hp
    · exact h1 q hq
  · rw [List.pairwise_append]
    refine ⟨h3, List.pairwise_cons.2 ⟨hb', h4⟩, ?_⟩
    intro q hq q' hq'
    rcases List.mem_cons.1 hq' with rfl | hq'
    · exact ha q hq
    · exact h5 q hq q' hq'

theorem Ordered.filter {ps : List Pending} (h : Ordered ps) (f : Pending → Bool) :
    Ordered (ps.filter f) :=
  ⟨fun p hp => h.1 p (List.mem_filter.1 hp).1, h.2.filter f⟩

/-- In order, the range identifies the waiting report. -/
theorem Ordered.range_inj {ps : List Pending} (h : Ordered ps) {p q : Pending} (hp : p ∈ ps)
    (hq : q ∈ ps) (he : p.range = q.range) : p = q := by
  obtain ⟨h1, h2⟩ := h
  induction ps with
  | nil => simp at hp
  | cons r rs ih =>
    obtain ⟨h3, h4⟩ := List.pairwise_cons.1 h2
    have hr := h1 r (by simp)
    rcases List.mem_cons.1 hp with e1 | hp' <;> rcases List.mem_cons.1 hq with e2 | hq'
    · rw [e1, e2]
    · have := h3 q hq'; rw [← he, e1] at this; omega
    · have := h3 p hp'; rw [he, e2] at this; omega
    · exact ih hp' hq' (fun p hp => h1 p (List.mem_cons_of_mem _ hp)) h4

end Hdtn.LtpReceiver
