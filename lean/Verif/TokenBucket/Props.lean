import Verif.TokenBucket.Model

/-!
Property C47: the token-bucket rate limiter.
-/

namespace Hdtn.TokenBucket

/-- An answered history. -/
abbrev Hist := List (Call × Option Bool)

/-- Ticks that passed in a history. -/
def elapsed : Hist → Int
  | [] => 0
  | (.add t, _) :: h => t + elapsed h
  | (.take _, _) :: h => elapsed h

/-- Tokens granted in a history. -/
def granted : Hist → Int
  | [] => 0
  | (.take n, some true) :: h => n + granted h
  | _ :: h => granted h

theorem elapsed_append (a b : Hist) : elapsed (a ++ b) = elapsed a + elapsed b := by
  induction a with
  | nil => simp [elapsed]
  | cons x a ih => obtain ⟨c | c, r⟩ := x <;> simp only [List.cons_append, elapsed, ih] <;> ring

theorem granted_append (a b : Hist) : granted (a ++ b) = granted a + granted b := by
  induction a with
  | nil => simp [granted]
  | cons x a ih =>
    obtain ⟨c | c, _ | _ | _⟩ := x <;> simp only [List.cons_append, granted, ih] <;> ring

theorem elapsed_nonneg (h : Hist) : 0 ≤ elapsed h := by
  induction h with
  | nil => simp [elapsed]
  | cons x a ih => obtain ⟨c | c, r⟩ := x <;> simp only [elapsed] <;> omega

theorem fit_eq (x y : Int) (h : fit x = some y) : y = x := by
  unfold fit at h; split at h
  · exact (Option.some.inj h).symm
  · simp at h

theorem fit_some (x : Int) (h1 : -2 ^ 63 ≤ x) (h2 : x < 2 ^ 63) : fit x = some x := by
  unfold fit; rw [if_pos ⟨h1, h2⟩]

/-- A limiter in use: no negative rate or limit, a positive interval. -/
structure Limiter.Sane (l : Limiter) : Prop where
  rate : 0 ≤ l.rate
  interval : 0 < l.interval
  limit : 0 ≤ l.limit

/-- The history's requests are below the size at which the product with the interval wraps. -/
def Modest (interval : Int) (cs : List Call) : Prop :=
  ∀ n, Call.take n ∈ cs → (n : Int) * interval < 2 ^ 63

theorem delta_eq (n : Nat) (i : Int) (hi : 0 < i) (h : (n : Int) * i < 2 ^ 63) :
    toSigned (((n : Int) * i) % 2 ^ 64).toNat = n * i := by
  have h0 : 0 ≤ (n : Int) * i := by positivity
  have h1 : ((n : Int) * i) % 2 ^ 64 = n * i := Int.emod_eq_of_lt h0 (by omega)
  rw [h1]
  unfold toSigned
  generalize (n : Int) * i = x at *
  have h2 : x.toNat % 2 ^ 64 = x.toNat := Nat.mod_eq_of_lt (by omega)
  rw [h2, if_pos (by omega)]
  omega

theorem run_append (l : Limiter) (a : List Call) (c : Call) (h : Hist) (l' : Limiter)
    (hr : run l (a ++ [c]) = some (h, l')) :
    ∃ h1 l1 ans, run l a = some (h1, l1) ∧ step l1 c = some (ans, l') ∧ h = h1 ++ [(c, ans)] := by
  induction a generalizing l h with
  | nil =>
    simp only [List.nil_append, run, Option.bind_eq_bind, Option.bind_eq_some_iff] at hr
    obtain ⟨⟨ans, l2⟩, h1, ⟨as, l3⟩, h2, h3⟩ := hr
    simp only [Option.some.injEq, Prod.mk.injEq] at h2 h3
    obtain ⟨rfl, rfl⟩ := h2
    obtain ⟨rfl, rfl⟩ := h3
    exact ⟨[], l, ans, rfl, h1, rfl⟩
  | cons x a ih =>
    simp only [List.cons_append, run, Option.bind_eq_bind, Option.bind_eq_some_iff] at hr
    obtain ⟨⟨ans, l2⟩, h1, ⟨as, l3⟩, h2, h3⟩ := hr
    simp only [Option.some.injEq, Prod.mk.injEq] at h3
    obtain ⟨rfl, rfl⟩ := h3
    obtain ⟨h4, l4, ans', h5, h6, rfl⟩ := ih l2 as h2
    refine ⟨(x, ans) :: h4, l4, ans', ?_, h6, rfl⟩
    simp only [run, h1, h5, Option.bind_eq_bind, Option.bind_some]

/-- Invariant: the account is at most its value as a running total over every suffix of the history,
and equal to it for one suffix. -/
structure Inv (l0 : Limiter) (h : Hist) (l : Limiter) : Prop where
  rate : l.rate = l0.rate
  interval : l.interval = l0.interval
  limit : l.limit = l0.limit
  le : ∀ a b, h = a ++ b → l.remain ≤ l0.limit + l0.rate * elapsed b - granted b * l0.interval
  eq : ∃ a b, h = a ++ b ∧ l.remain = l0.limit + l0.rate * elapsed b - granted b * l0.interval

theorem concat_eq_append {α} {h : List α} {x : α} {a b : List α} (heq : h ++ [x] = a ++ b) :
    (b = [] ∧ a = h ++ [x]) ∨ ∃ b', b = b' ++ [x] ∧ h = a ++ b' := by
  rcases List.eq_nil_or_concat b with rfl | ⟨b', y, rfl⟩
  · left; simpa using heq.symm
  · right
    rw [List.concat_eq_append, ← List.append_assoc] at heq
    have := List.append_inj' heq rfl
    simp only [List.cons.injEq, and_true] at this
    obtain ⟨h1, h2⟩ := this
    exact ⟨b', by simp [h2], h1⟩

theorem inv_run (l0 : Limiter) (hs : l0.Sane) (hfull : l0.remain = l0.limit) (cs : List Call)
    (hm : Modest l0.interval cs) (h : Hist) (l : Limiter) (hr : run l0 cs = some (h, l)) :
    Inv l0 h l := by
  induction hn : cs.length generalizing cs h l with
  | zero =>
    have : cs = [] := List.length_eq_zero_iff.1 hn
    subst this
    simp only [run, Option.some.injEq, Prod.mk.injEq] at hr
    obtain ⟨rfl, rfl⟩ := hr
    refine ⟨rfl, rfl, rfl, fun a b hab => ?_, [], [], rfl, by simp [elapsed, granted, hfull]⟩
    have : b = [] := (List.append_eq_nil_iff.1 hab.symm).2
    subst this
    simp [elapsed, granted, hfull]
  | succ n ih =>
    rcases List.eq_nil_or_concat cs with rfl | ⟨pre, c, rfl⟩
    · simp at hn
    rw [List.concat_eq_append] at hr hn hm
    obtain ⟨h1, l1, ans, hr1, hstep, rfl⟩ := run_append l0 pre c h l hr
    have hinv := ih pre (fun n hn => hm n (by simp [hn])) h1 l1 hr1 (by simpa using hn)
    have hmul : 0 ≤ l0.rate := hs.rate
    cases c with
    | add t =>
      simp only [step, addTime, Option.bind_eq_bind, Option.map_eq_some_iff,
        Option.bind_eq_some_iff] at hstep
      obtain ⟨l2, ⟨d, hd, r, hr', hl2⟩, heq⟩ := hstep
      simp only [Prod.mk.injEq] at heq
      obtain ⟨rfl, rfl⟩ := heq
      have hd' := fit_eq _ _ hd
      have hr'' := fit_eq _ _ hr'
      rw [Option.some.injEq] at hl2
      subst hl2
      have hrate := hinv.rate
      have hlim := hinv.limit
      have hle : ∀ a b, h1 ++ [(Call.add t, none)] = a ++ b →
          (if r > l1.limit then l1.limit else r) ≤
            l0.limit + l0.rate * elapsed b - granted b * l0.interval := by
        intro a b hab
        rcases concat_eq_append hab with ⟨rfl, -⟩ | ⟨b', rfl, hb'⟩
        · simp only [elapsed, granted, mul_zero, zero_mul]
          split_ifs <;> omega
        · have h3 := hinv.le a b' hb'
          have h4 : l0.rate * elapsed (b' ++ [(Call.add t, none)]) =
              l0.rate * elapsed b' + l0.rate * t := by
            rw [elapsed_append]; simp only [elapsed]; ring
          have h5 : granted (b' ++ [(Call.add t, none)]) = granted b' := by
            rw [granted_append]; simp [granted]
          rw [h4, h5]
          rw [hrate] at hd'
          split_ifs <;> omega
      refine ⟨hrate, hinv.interval, hlim, hle, ?_⟩
      by_cases hcap : r > l1.limit
      · refine ⟨h1 ++ [(Call.add t, none)], [], by simp, ?_⟩
        simp only [if_pos hcap, elapsed, granted]; omega
      · obtain ⟨a, b, hab, hq⟩ := hinv.eq
        refine ⟨a, b ++ [(Call.add t, none)], by rw [hab]; simp, ?_⟩
        have h4 : l0.rate * elapsed (b ++ [(Call.add t, none)]) =
            l0.rate * elapsed b + l0.rate * t := by
          rw [elapsed_append]; simp only [elapsed]; ring
        have h5 : granted (b ++ [(Call.add t, none)]) = granted b := by
          rw [granted_append]; simp [granted]
        rw [h4, h5]
        rw [hrate] at hd'
        simp only [if_neg hcap]
        omega
    | take k =>
      simp only [step, takeTokens, Option.map_eq_some_iff] at hstep
      obtain ⟨⟨ok, l2⟩, hstep, heq⟩ := hstep
      simp only [Prod.mk.injEq] at heq
      obtain ⟨rfl, rfl⟩ := heq
      split at hstep
      · simp only [Option.some.injEq, Prod.mk.injEq] at hstep
        obtain ⟨rfl, rfl⟩ := hstep
        have h4 : ∀ b : Hist, elapsed (b ++ [(Call.take k, some false)]) = elapsed b := by
          intro b; rw [elapsed_append]; simp [elapsed]
        have h5 : ∀ b : Hist, granted (b ++ [(Call.take k, some false)]) = granted b := by
          intro b; rw [granted_append]; simp [granted]
        refine ⟨hinv.rate, hinv.interval, hinv.limit, ?_, ?_⟩
        · intro a b hab
          rcases concat_eq_append hab with ⟨rfl, -⟩ | ⟨b', rfl, hb'⟩
          · have := hs.limit
            simp only [elapsed, granted, mul_zero, zero_mul]; omega
          · rw [h4, h5]; exact hinv.le a b' hb'
        · obtain ⟨a, b, hab, hq⟩ := hinv.eq
          exact ⟨a, b ++ [(Call.take k, some false)], by rw [hab]; simp, by rw [h4, h5]; exact hq⟩
      · rename_i hnn
        simp only [Option.bind_eq_bind, Option.bind_eq_some_iff, Option.some.injEq,
          Prod.mk.injEq] at hstep
        obtain ⟨r, hr', rfl, rfl⟩ := hstep
        have hk := hm k (by simp)
        rw [hinv.interval, delta_eq k _ hs.interval hk] at hr'
        have hr'' := fit_eq _ _ hr'
        have hpos : 0 ≤ (k : Int) * l0.interval := by have := hs.interval; positivity
        have h4 : ∀ b : Hist, elapsed (b ++ [(Call.take k, some true)]) = elapsed b := by
          intro b; rw [elapsed_append]; simp [elapsed]
        have h5 : ∀ b : Hist, granted (b ++ [(Call.take k, some true)]) * l0.interval =
            granted b * l0.interval + k * l0.interval := by
          intro b; rw [granted_append]; simp only [granted]; ring
        have h0 := hinv.le h1 [] (by simp)
        simp only [elapsed, granted, mul_zero, zero_mul] at h0
        refine ⟨hinv.rate, hinv.interval, hinv.limit, ?_, ?_⟩
        · intro a b hab
          rcases concat_eq_append hab with ⟨rfl, -⟩ | ⟨b', rfl, hb'⟩
          · simp only [elapsed, granted, mul_zero, zero_mul]; omega
          · rw [h4, h5]; have := hinv.le a b' hb'; simp only; omega
        · obtain ⟨a, b, hab, hq⟩ := hinv.eq
          exact ⟨a, b ++ [(Call.take k, some true)], by rw [hab]; simp,
            by rw [h4, h5]; simp only; omega⟩

/-- C47, exact characterisation: after any history of a freshly configured limiter the next request
is granted exactly when in every period up to now (every suffix of the history) what was granted
does not exceed the burst allowance plus the rate times the elapsed time. -/
theorem C47_granted_iff (l0 : Limiter) (hs : l0.Sane) (hfull : l0.remain = l0.limit)
    (cs : List Call) (hm : Modest l0.interval cs) (h : Hist) (l : Limiter)
    (hr : run l0 cs = some (h, l)) (n : Nat) (ok : Bool) (l' : Limiter)
    (ht : takeTokens l n = some (ok, l')) :
    ok = true ↔ ∀ a b, h = a ++ b → granted b * l0.interval ≤ l0.limit + l0.rate * elapsed b := by
  have hinv := inv_run l0 hs hfull cs hm h l hr
  have hok : ok = true ↔ 0 ≤ l.remain := by
    unfold takeTokens at ht
    split at ht
    · simp only [Option.some.injEq, Prod.mk.injEq] at ht
      rw [← ht.1]; simp; omega
    · simp only [Option.bind_eq_bind, Option.bind_eq_some_iff, Option.some.injEq,
        Prod.mk.injEq] at ht
      obtain ⟨r, _, h1, _⟩ := ht
      rw [← h1]; simp; omega
  rw [hok]
  constructor
  · intro h0 a b hab
    have := hinv.le a b hab; omega
  · intro hall
    obtain ⟨a, b, hab, hq⟩ := hinv.eq
    have := hall a b hab; omega

/-- C47, the bound: over any period that ends with a granted request, everything granted before that
request is within the burst allowance plus the rate times the elapsed time. -/
theorem C47_rate_bound (l0 : Limiter) (hs : l0.Sane) (hfull : l0.remain = l0.limit)
    (cs : List Call) (hm : Modest l0.interval cs) (h : Hist) (l : Limiter)
    (hr : run l0 cs = some (h, l)) (before period after : Hist) (n : Nat)
    (hsplit : h = before ++ period ++ (Call.take n, some true) :: after) :
    granted period * l0.interval ≤ l0.limit + l0.rate * elapsed period := by
  have key : ∀ (cs : List Call) (l0' : Limiter) (h : Hist) (l : Limiter),
      run l0' cs = some (h, l) → ∀ (x : Hist) (e : Call × Option Bool) (y : Hist),
      h = x ++ e :: y → ∃ cs1 cs2 l1 l2, cs = cs1 ++ e.1 :: cs2 ∧
        run l0' cs1 = some (x, l1) ∧ step l1 e.1 = some (e.2, l2) := by
    intro cs
    induction cs with
    | nil =>
      intro l0' h l hr x e y hh
      simp only [run, Option.some.injEq, Prod.mk.injEq] at hr
      rw [← hr.1] at hh; simp at hh
    | cons c cs ih =>
      intro l0' h l hr x e y hh
      simp only [run, Option.bind_eq_bind, Option.bind_eq_some_iff] at hr
      obtain ⟨⟨ans, l2⟩, h1, ⟨as, l3⟩, h2, h3⟩ := hr
      simp only [Option.some.injEq, Prod.mk.injEq] at h3
      obtain ⟨rfl, rfl⟩ := h3
      cases x with
      | nil =>
        simp only [List.nil_append, List.cons.injEq] at hh
        obtain ⟨rfl, rfl⟩ := hh
        exact ⟨[], cs, l0', l2, rfl, rfl, h1⟩
      | cons e' x =>
        simp only [List.cons_append, List.cons.injEq] at hh
        obtain ⟨rfl, hh⟩ := hh
        obtain ⟨cs1, cs2, l4, l5, h5, h6, h7⟩ := ih l2 as l3 h2 x e y hh
        refine ⟨c :: cs1, cs2, l4, l5, by rw [h5]; rfl, ?_, h7⟩
        simp only [run, h1, h6, Option.bind_eq_bind, Option.bind_some]
  obtain ⟨cs1, cs2, l1, l2, h1, h2, h3⟩ := key cs l0 h l hr (before ++ period) _ after hsplit
  simp only [step, Option.map_eq_some_iff, Prod.mk.injEq, Option.some.injEq] at h3
  obtain ⟨⟨ok, l3⟩, h4, h5, h6⟩ := h3
  have := (C47_granted_iff l0 hs hfull cs1 (fun n hn => hm n (by rw [h1]; simp [hn])) _ l1 h2 n ok
    l3 h4).1 h5
  exact this before period rfl

/-- C47: no arithmetic overflow, so the hypotheses `run ... = some ...` above are met, when the
burst, each time step's refill and each request are at most 2^62 ticks·tokens. -/
theorem C47_no_overflow (l0 : Limiter) (hs : l0.Sane) (hr0 : -2 ^ 62 ≤ l0.remain)
    (hfull : l0.remain ≤ l0.limit) (hl : l0.limit ≤ 2 ^ 62) (cs : List Call)
    (hadd : ∀ t, Call.add t ∈ cs → l0.rate * t < 2 ^ 62)
    (htake : ∀ n, Call.take n ∈ cs → (n : Int) * l0.interval ≤ 2 ^ 62) :
    ∃ h l, run l0 cs = some (h, l) := by
  induction cs generalizing l0 with
  | nil => exact ⟨_, _, rfl⟩
  | cons c cs ih =>
    have hstep : ∃ a l1, step l0 c = some (a, l1) ∧ l1.rate = l0.rate ∧ l1.interval = l0.interval ∧
        l1.limit = l0.limit ∧ -2 ^ 62 ≤ l1.remain ∧ l1.remain ≤ l1.limit := by
      cases c with
      | add t =>
        have h1 := hadd t (by simp)
        have h0 : 0 ≤ l0.rate * t := by have := hs.rate; positivity
        simp only [step, addTime, Option.bind_eq_bind]
        rw [fit_some _ (by omega) (by omega), Option.bind_some,
          fit_some _ (by omega) (by omega), Option.bind_some]
        refine ⟨_, _, rfl, rfl, rfl, rfl, ?_, ?_⟩
        · have := hs.limit
          simp only; split_ifs <;> omega
        · simp only; split_ifs <;> omega
      | take n =>
        have h1 := htake n (by simp)
        have h0 : 0 ≤ (n : Int) * l0.interval := by have := hs.interval; positivity
        simp only [step, takeTokens]
        split
        · exact ⟨_, _, rfl, rfl, rfl, rfl, hr0, hfull⟩
        · rw [delta_eq n _ hs.interval (by omega), Option.bind_eq_bind,
            fit_some _ (by omega) (by omega), Option.bind_some]
          refine ⟨_, _, rfl, rfl, rfl, rfl, by simp only; omega, by simp only; omega⟩
    obtain ⟨a, l1, h1, h2, h3, h4, h5, h6⟩ := hstep
    have hs1 : l1.Sane := ⟨by rw [h2]; exact hs.rate, by rw [h3]; exact hs.interval,
      by rw [h4]; exact hs.limit⟩
    obtain ⟨h, l, hr⟩ := ih l1 hs1 h5 h6 (by rw [h4]; exact hl)
      (fun t ht => by rw [h2]; exact hadd t (by simp [ht]))
      (fun n hn => by rw [h3]; exact htake n (by simp [hn]))
    exact ⟨(c, a) :: h, l, by simp only [run, h1, hr, Option.bind_eq_bind, Option.bind_some]⟩

/-- A limiter of 1000 tokens per 10 ticks with a window of 20 ticks: 2000 tokens burst. -/
example : setRate 1000 10 20 = some ⟨1000, 10, 20000, 20000⟩ ∧
    (run ⟨1000, 10, 20000, 20000⟩
      [.take 1500, .take 700, .take 1, .add 1, .take 1, .add 2, .take 5]).map (·.1.map (·.2)) =
      some [some true, some true, some false, none, some false, none, some true] ∧
    Limiter.Sane ⟨1000, 10, 20000, 20000⟩ ∧ Modest 10 [.take 1500, .add 1] := by
  refine ⟨by decide, by decide, ⟨by decide, by decide, by decide⟩, ?_⟩
  intro n hn
  simp at hn
  subst hn; norm_num

end Hdtn.TokenBucket
