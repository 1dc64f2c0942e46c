import Verif.IrkSmall

/-!
# Termination of the implicit integrator's loop: helper lemmas
-/

set_option linter.unusedSectionVars false

namespace Verif
open Spec

section loops
variable {S R : Type}

theorem runLoop_step {body : S → LoopStep S R} {s s' : S} (h : body s = .next s') 
    (ht : ∃ fuel r, runLoop body fuel s' = some r) : ∃ fuel r, runLoop body fuel s = some r := by
  obtain ⟨k, r, hk⟩ := ht
  exact ⟨k + 1, r, by unfold runLoop; rw [h]; exact hk⟩

theorem runLoop_done {body : S → LoopStep S R} {s : S} {r : Outcome R} (h : body s = .done r) :
    ∃ fuel r, runLoop body fuel s = some r := ⟨1, r, by unfold runLoop; rw [h]⟩

/-- a loop that never ends goes through infinitely many states -/
theorem diverges_seq {body : S → LoopStep S R} {s : S} (h : ∀ k, runLoop body k s = none) :
    ∃ st : ℕ → S, st 0 = s ∧ ∀ k, body (st k) = .next (st (k + 1)) := by
  have step : ∀ s : {s : S // ∀ k, runLoop body k s = none},
      ∃ s' : {s : S // ∀ k, runLoop body k s = none}, body s.1 = .next s'.1 := by
    rintro ⟨s, hs⟩
    cases hb : body s with
    | done r =>
      have := hs 1
      unfold runLoop at this
      rw [hb] at this
      cases this
    | next s' =>
      refine ⟨⟨s', fun k => ?_⟩, rfl⟩
      have := hs (k + 1)
      unfold runLoop at this
      rw [hb] at this
      exact this
  choose nx hnx using step
  exact ⟨fun k => ((fun x => nx x)^[k] ⟨s, h⟩).1, rfl, fun k => by
    simp only [Function.iterate_succ_apply']; exact hnx _⟩

end loops

variable {n : ℕ} {nd : Bool} {la : LinAlg ℝ} {fn : OdeFun ℝ n} {t0 t1 : ℝ} {y0 : Vec ℝ n} {o : IrkOpts ℝ}
  {no : NewtonOpts ℝ} {dt : ℝ} {sc : SolverCoeffs ℝ} {oo : OutOpts} {mo : ℕ} {d d2 : Vec ℝ sc.ns}

/-- invariant of the states met -/
structure GoodI (t0 t1 : ℝ) (s : IrkState ℝ (sc.ns * n) n) : Prop where
  time : TimeInvI t0 t1 s
  maxit : 2 ≤ s.newtonMaxit

theorem goodI_next (hno : 0 ≤ no.maxit) {s s' : IrkState ℝ (sc.ns * n) n} (h : GoodI t0 t1 s)
    (hb : irkBody nd la fn t1 o no oo sc mo d d2 s = .next s') : GoodI t0 t1 s' := by
  refine ⟨timeInvI_next h.time hb, ?_⟩
  have hm := h.maxit
  have hc := bodyCaseI nd la fn t1 o no oo sc mo d d2 s
  rw [hb] at hc
  cases hc with
  | newton hl hm r hr hs had =>
    simp only [newtonReject]
    split_ifs <;> omega
  | rejected hl hm r hr hs had a ha hE hj => exact h.maxit
  | accepted hl hm r hr hs had a ha hE hj hi hw => exact h.maxit

/-- a pass goes on: not accepted means the step shrinks to at most 0.9 times its size -/
theorem next_cases {s s' : IrkState ℝ (sc.ns * n) n} (h : GoodI t0 t1 s)
    (hb : irkBody nd la fn t1 o no oo sc mo d d2 s = .next s') :
    s.t < t1 ∧ ((s'.t = s.t ∧ s'.y = s.y ∧ s'.step = s.step ∧ s'.dt ≤ 9 / 10 * s.dt ∧
        ((∃ r, solveAt nd la fn t1 no sc s = .ret r ∧ r.status ≠ 0) ∨
          ∃ r a, solveAt nd la fn t1 no sc s = .ret r ∧ r.status = 0 ∧
            attemptI la fn o sc mo d d2 s (clipDt s.t t1 s.dt) r.success = some a ∧ 1 < a.err)) ∨
      (s'.t = s.t + clipDt s.t t1 s.dt ∧ s'.step = s.step + 1 ∧ ∃ r a, s' = acceptI oo s a ∧
        solveAt nd la fn t1 no sc s = .ret r ∧ r.status = 0 ∧
        attemptI la fn o sc mo d d2 s (clipDt s.t t1 s.dt) r.success = some a)) := by
  have hc := bodyCaseI nd la fn t1 o no oo sc mo d d2 s
  rw [hb] at hc
  cases hc with
  | newton hl hm r hr hs had =>
    have hlt : s.t < t1 := by simpa using hl
    refine ⟨hlt, Or.inl ⟨rfl, rfl, rfl, ?_, Or.inl ⟨r, hr, hs⟩⟩⟩
    have := (clip_factsI h.time hlt)
    simp only [newtonReject, lit_real]
    push_cast
    linarith
  | rejected hl hm r hr hs had a ha hE hj =>
    have hlt : s.t < t1 := by simpa using hl
    refine ⟨hlt, Or.inl ⟨rfl, rfl, rfl, ?_, Or.inr ⟨r, a, hr, hs, ha, ?_⟩⟩⟩
    · have h1 := (attemptI_facts h.time hlt hr hs ha).2.2.2.2 hj
      have := (clip_factsI h.time hlt)
      change a.newDt ≤ _
      linarith
    · rw [(attemptI_spec ha).2.2.2.2.1] at hj
      simpa using hj
  | accepted hl hm r hr hs had a ha hE hj hi hw =>
    have hlt : s.t < t1 := by simpa using hl
    refine ⟨hlt, Or.inr ⟨?_, rfl, r, a, rfl, hr, hs, ha⟩⟩
    change s.t + a.dt = _
    rw [(attemptI_spec ha).1]

/-- With a step limit the loop ends if from every point small enough steps are not rejected. -/
theorem loop_ends_limit (hms : 0 ≤ o.maxSteps) (hno : 0 ≤ no.maxit)
    (hsm : ∀ t y, ∃ h0 > 0, ∀ s s' : IrkState ℝ (sc.ns * n) n, GoodI t0 t1 s → s.t = t → s.y = y →
      clipDt s.t t1 s.dt ≤ h0 → irkBody nd la fn t1 o no oo sc mo d d2 s = .next s' → s'.step = s.step + 1)
    (s : IrkState ℝ (sc.ns * n) n) (hs : GoodI t0 t1 s) :
    ∃ fuel r, runLoop (irkBody nd la fn t1 o no oo sc mo d d2) fuel s = some r := by
  obtain ⟨N, hN⟩ : ∃ N : ℕ, o.maxSteps + 1 ≤ (s.step : ℤ) + N := ⟨(o.maxSteps + 1).toNat, by omega⟩
  induction N generalizing s with
  | zero =>
    cases hb : irkBody nd la fn t1 o no oo sc mo d d2 s with
    | done r => exact runLoop_done hb
    | next s' =>
      exfalso
      have hc := bodyCaseI nd la fn t1 o no oo sc mo d d2 s
      rw [hb] at hc
      cases hc with
      | newton hl hm r hr hs had => omega
      | rejected hl hm r hr hs had a ha hE hj => omega
      | accepted hl hm r hr hs had a ha hE hj hi hw => omega
  | succ N ih =>
    obtain ⟨h0, hh0, hsmall⟩ := hsm s.t s.y
    obtain ⟨K, hK⟩ : ∃ K : ℕ, s.dt * (9 / 10) ^ K ≤ h0 := by
      have hd := hs.time.dt
      obtain ⟨K, hK⟩ := exists_pow_lt_of_lt_one (div_pos hh0 hd) (by norm_num : (9 / 10 : ℝ) < 1)
      refine ⟨K, ?_⟩
      rw [lt_div_iff₀ hd] at hK
      linarith
    have key : ∀ K : ℕ, ∀ s' : IrkState ℝ (sc.ns * n) n, GoodI t0 t1 s' → s'.t = s.t → s'.y = s.y → s'.step = s.step →
        s'.dt * (9 / 10) ^ K ≤ h0 →
        ∃ fuel r, runLoop (irkBody nd la fn t1 o no oo sc mo d d2) fuel s' = some r := by
      intro K
      induction K with
      | zero =>
        intro s' hg e1 e2 e3 hd
        cases hb : irkBody nd la fn t1 o no oo sc mo d d2 s' with
        | done r => exact runLoop_done hb
        | next s2 =>
          refine runLoop_step hb (ih s2 (goodI_next hno hg hb) ?_)
          have hlt := (next_cases hg hb).1
          rw [hsmall s' s2 hg e1 e2 ?_ hb, e3]
          · push_cast at hN ⊢; omega
          · have := (clip_factsI hg.time hlt).2.2
            rw [pow_zero, mul_one] at hd
            linarith
      | succ K ihK =>
        intro s' hg e1 e2 e3 hd
        cases hb : irkBody nd la fn t1 o no oo sc mo d d2 s' with
        | done r => exact runLoop_done hb
        | next s2 =>
          refine runLoop_step hb ?_
          obtain ⟨-, ⟨f1, f2, f3, f4, -⟩ | ⟨-, f2, -⟩⟩ := next_cases hg hb
          · refine ihK s2 (goodI_next hno hg hb) (f1.trans e1) (f2.trans e2) (f3.trans e3) ?_
            calc s2.dt * (9 / 10) ^ K ≤ 9 / 10 * s'.dt * (9 / 10) ^ K := by
                  apply mul_le_mul_of_nonneg_right f4; positivity
              _ = s'.dt * (9 / 10) ^ (K + 1) := by ring
              _ ≤ h0 := hd
          · refine ih s2 (goodI_next hno hg hb) ?_
            rw [f2, e3]; push_cast at hN ⊢; omega
    exact key K s hs rfl rfl rfl hK

/-- A state from which a pass with its step succeeds with one Newton pass and a second order error. -/
def TameI (nd : Bool) (la : LinAlg ℝ) (fn : OdeFun ℝ n) (t1 : ℝ) (o : IrkOpts ℝ) (no : NewtonOpts ℝ)
    (sc : SolverCoeffs ℝ) (mo : ℕ) (d d2 : Vec ℝ sc.ns) (C : ℝ) (s : IrkState ℝ (sc.ns * n) n) : Prop :=
  ∀ r, solveAt nd la fn t1 no sc s = .ret r → r.status = 0 ∧ r.iters = 1 ∧
    ∀ a, attemptI la fn o sc mo d d2 s (clipDt s.t t1 s.dt) r.success = some a →
      a.err ≤ max (C * clipDt s.t t1 s.dt ^ 2) machinePrecision

/-- growth of a sequence of steps that follow the step size control at a constant error -/
theorem control_grows {q : ℝ} (hq : 1 < q) (x : ℕ → ℝ) (hx : ∀ k, 0 < x k)
    (hstep : ∀ k, q * x (k + 1) * min 1 (x (k + 1) / x k) ≤ x (k + 2)) (B : ℝ) : ∃ k, B < x k := by
  have hq0 : 0 < q := by linarith
  have step' : ∀ k, q * min 1 (x (k + 1) / x k) ≤ x (k + 2) / x (k + 1) := by
    intro k
    rw [le_div_iff₀ (hx _)]
    have := hstep k
    nlinarith
  -- eventually the ratio is at least one
  have h1 : ∃ k, 1 ≤ x (k + 1) / x k := by
    by_contra hcon
    push Not at hcon
    have hg : ∀ k, q ^ k * (x 1 / x 0) ≤ x (k + 1) / x k := by
      intro k
      induction k with
      | zero => simp
      | succ k ih =>
        have := step' k
        rw [min_eq_right (hcon k).le] at this
        calc q ^ (k + 1) * (x 1 / x 0) = q * (q ^ k * (x 1 / x 0)) := by ring
          _ ≤ q * (x (k + 1) / x k) := mul_le_mul_of_nonneg_left ih hq0.le
          _ ≤ _ := this
    have hr : 0 < x 1 / x 0 := div_pos (hx _) (hx _)
    obtain ⟨k, hk⟩ := pow_unbounded_of_one_lt (1 / (x 1 / x 0)) hq
    rw [div_lt_iff₀ hr] at hk
    linarith [hg k, hcon k]
  obtain ⟨K, hK⟩ := h1
  have h2 : ∀ j, 1 ≤ x (K + j + 1) / x (K + j) := by
    intro j
    induction j with
    | zero => exact hK
    | succ j ih =>
      have := step' (K + j)
      rw [min_eq_left ih, mul_one] at this
      exact hq.le.trans this
  have h3 : ∀ j, q ^ j * x (K + 1) ≤ x (K + 1 + j) := by
    intro j
    induction j with
    | zero => simp
    | succ j ih =>
      have := step' (K + j)
      rw [min_eq_left (h2 j), mul_one, le_div_iff₀ (hx _)] at this
      calc q ^ (j + 1) * x (K + 1) = q * (q ^ j * x (K + 1)) := by ring
        _ ≤ q * x (K + 1 + j) := mul_le_mul_of_nonneg_left ih hq0.le
        _ = q * x (K + j + 1) := by rw [show K + 1 + j = K + j + 1 by omega]
        _ ≤ x (K + j + 2) := this
        _ = _ := by rw [show K + 1 + (j + 1) = K + j + 2 by omega]
  obtain ⟨j, hj⟩ := pow_unbounded_of_one_lt (B / x (K + 1)) hq
  rw [div_lt_iff₀ (hx _)] at hj
  exact ⟨_, hj.trans_le (h3 j)⟩

/-- a monotone bounded sequence eventually moves by less than any given amount -/
theorem mono_bounded_steps {x : ℕ → ℝ} (hm : ∀ k, x k ≤ x (k + 1)) {B : ℝ} (hB : ∀ k, x k ≤ B) {ε : ℝ} (hε : 0 < ε) :
    ∃ K, ∀ k ≥ K, x (k + 1) - x k < ε := by
  have hmono : Monotone x := monotone_nat_of_le_succ hm
  have hbdd : BddAbove (Set.range x) := ⟨B, by rintro _ ⟨k, rfl⟩; exact hB k⟩
  obtain ⟨K, hK⟩ := exists_lt_of_lt_ciSup (show (⨆ k, x k) - ε < ⨆ k, x k by linarith)
  refine ⟨K, fun k hk => ?_⟩
  have h1 : x (k + 1) ≤ ⨆ k, x k := le_ciSup hbdd _
  have h2 := hmono hk
  linarith

/-- the step proposed by an accepted tame pass with error at the cut-off -/
theorem tame_newDt {s : IrkState ℝ (sc.ns * n) n} (h : GoodI t0 t1 s)
    {r : StageResult ℝ (sc.ns * n) n} (hit : r.iters = 1) {a : AttemptI ℝ n}
    (ha : attemptI la fn o sc mo d d2 s (clipDt s.t t1 s.dt) r.success = some a)
    (he : a.err = machinePrecision) (he0 : s.errs0 = machinePrecision) (hmax : 0 < o.maxDt → a.newDt < o.maxDt) :
    a.newDt = 9 / 10 * clipDt s.t t1 s.dt * min 8 (min ((1 / machinePrecision : ℝ) ^ ((1 : ℝ) / (1 + mo)))
      ((1 / machinePrecision : ℝ) ^ ((1 : ℝ) / (1 + mo)) * (s.dts0 / s.dts1))) := by
  obtain ⟨-, -, -, -, -, e6⟩ := attemptI_spec ha
  have hp : (0 : ℝ) < machinePrecision := mp_pos
  rw [newDtI_real _ _ (by rw [he]; exact hp) h.time.errs0] at e6
  have hm : (0 : ℝ) < s.newtonMaxit + 1 := by
    have := h.maxit
    have : (2 : ℝ) ≤ s.newtonMaxit := by exact_mod_cast this
    linarith
  have e : proposal mo (clipDt s.t t1 s.dt) a.err a.err s.errs0 s.dts0 s.dts1 s.newtonMaxit r.success.iters =
      9 / 10 * clipDt s.t t1 s.dt * min 8 (min ((1 / machinePrecision : ℝ) ^ ((1 : ℝ) / (1 + mo)))
      ((1 / machinePrecision : ℝ) ^ ((1 : ℝ) / (1 + mo)) * (s.dts0 / s.dts1))) := by
    unfold proposal
    rw [he, he0, show r.success.iters = 1 from hit]
    rw [div_self hp.ne', Real.one_rpow, mul_one, Nat.cast_one, mul_div_assoc, div_self hm.ne', mul_one]
  by_cases h0 : 0 < o.maxDt
  · rw [if_pos h0] at e6
    have := hmax h0
    rcases min_choice o.maxDt (proposal mo (clipDt s.t t1 s.dt) a.err a.err s.errs0 s.dts0 s.dts1 s.newtonMaxit
      r.success.iters) with h1 | h1
    · rw [h1] at e6; linarith
    · rw [h1] at e6; rw [e6, e]
  · rw [if_neg h0] at e6; rw [e6, e]

/-- Without a step limit the loop ends if all states from some point on are tame for small enough steps; `I` is any invariant of
the states met. -/
theorem loop_ends_inv (hmo : (machinePrecision : ℝ) < (9 / 10) ^ (1 + mo)) {h1 : ℝ} (hh1 : 0 < h1)
    {I : IrkState ℝ (sc.ns * n) n → Prop} (hI : ∀ s, I s → GoodI t0 t1 s)
    (hIn : ∀ s s', I s → irkBody nd la fn t1 o no oo sc mo d d2 s = .next s' → I s')
    (hP : ∀ s : IrkState ℝ (sc.ns * n) n, I s → ∃ P : IrkState ℝ (sc.ns * n) n → Prop, P s ∧
      (∀ s s', I s → P s → irkBody nd la fn t1 o no oo sc mo d d2 s = .next s' → s'.t - s.t ≤ h1 → P s') ∧
      ∃ h0 > 0, ∃ C ≥ 0, ∀ s, I s → s.t < t1 → P s → clipDt s.t t1 s.dt ≤ h0 →
        TameI nd la fn t1 o no sc mo d d2 C s)
    (s : IrkState ℝ (sc.ns * n) n) (hs : I s) :
    ∃ fuel r, runLoop (irkBody nd la fn t1 o no oo sc mo d d2) fuel s = some r := by
  by_contra hcon
  push Not at hcon
  obtain ⟨st, hst0, hst⟩ := diverges_seq (body := irkBody nd la fn t1 o no oo sc mo d d2) (s := s) (fun k => by
    cases hk : runLoop (irkBody nd la fn t1 o no oo sc mo d d2) k s with
    | none => rfl
    | some r => exact absurd hk (hcon k r))
  have hIk : ∀ k, I (st k) := by
    intro k
    induction k with
    | zero => rw [hst0]; exact hs
    | succ k ih => exact hIn _ _ ih (hst k)
  have hg : ∀ k, GoodI t0 t1 (st k) := fun k => hI _ (hIk k)
  have hlt : ∀ k, (st k).t < t1 := fun k => (next_cases (hg k) (hst k)).1
  have hmono : ∀ k, (st k).t ≤ (st (k + 1)).t := by
    intro k
    obtain ⟨-, ⟨f1, -⟩ | ⟨f1, -⟩⟩ := next_cases (hg k) (hst k)
    · rw [f1]
    · rw [f1]; linarith [(clip_factsI (hg k).time (hlt k)).1]
  have hsteps := fun {ε : ℝ} (hε : 0 < ε) => mono_bounded_steps (x := fun k => (st k).t) hmono (fun k => (hlt k).le) hε
  obtain ⟨K1, hK1⟩ := hsteps hh1
  obtain ⟨P, hP0, hPs, h0, hh0, C, hC, htame⟩ := hP (st K1) (hIk K1)
  have hPk : ∀ k ≥ K1, P (st k) := by
    intro k hk
    induction k, hk using Nat.le_induction with
    | base => exact hP0
    | succ k hk ih => exact hPs _ _ (hIk k) ih (hst k) (hK1 k hk).le
  -- a small step size
  have hp : (0 : ℝ) < machinePrecision := mp_pos
  obtain ⟨ε, hε, hε0, hεC, hεm⟩ : ∃ ε > 0, 36 / 5 * ε ≤ h0 ∧ C * ε ^ 2 ≤ machinePrecision ∧
      (0 < o.maxDt → ε ≤ o.maxDt) := by
    refine ⟨min (5 / 36 * h0) (min (machinePrecision / (C + 1)) (min 1 (if 0 < o.maxDt then o.maxDt else 1))), ?_, ?_, ?_, ?_⟩
    · refine lt_min (by positivity) (lt_min (by positivity) (lt_min one_pos ?_))
      split_ifs with h
      · exact h
      · exact one_pos
    · have := min_le_left (5 / 36 * h0) (min (machinePrecision / (C + 1)) (min 1 (if 0 < o.maxDt then o.maxDt else 1)))
      linarith
    · set ε := min (5 / 36 * h0) (min (machinePrecision / (C + 1)) (min 1 (if 0 < o.maxDt then o.maxDt else 1)))
      have hpos : 0 < ε := by
        refine lt_min (by positivity) (lt_min (by positivity) (lt_min one_pos ?_))
        split_ifs with h
        · exact h
        · exact one_pos
      have h2 : ε ≤ machinePrecision / (C + 1) := (min_le_right _ _).trans (min_le_left _ _)
      have h3 : ε ≤ 1 := (min_le_right _ _).trans ((min_le_right _ _).trans (min_le_left _ _))
      rw [le_div_iff₀ (by linarith)] at h2
      have h4 : ε ^ 2 ≤ ε := by nlinarith
      nlinarith [mul_le_mul_of_nonneg_left h4 hC]
    · intro h
      refine (min_le_right _ _).trans ((min_le_right _ _).trans ((min_le_right _ _).trans ?_))
      rw [if_pos h]
  obtain ⟨K2, hK2⟩ := hsteps hε
  -- small clipped steps are accepted
  have hacc : ∀ k ≥ K1, clipDt (st k).t t1 (st k).dt ≤ ε * (36 / 5) → ∃ r a, st (k + 1) = acceptI oo (st k) a ∧
      (st (k + 1)).t = (st k).t + clipDt (st k).t t1 (st k).dt ∧
      r.iters = 1 ∧ solveAt nd la fn t1 no sc (st k) = .ret r ∧ r.status = 0 ∧
      attemptI la fn o sc mo d d2 (st k) (clipDt (st k).t t1 (st k).dt) r.success = some a ∧
      a.err ≤ max (C * clipDt (st k).t t1 (st k).dt ^ 2) machinePrecision := by
    intro k hk hcl
    have ht := htame (st k) (hIk k) (hlt k) (hPk k hk) (by linarith)
    obtain ⟨-, ⟨-, -, -, -, ⟨r, hr, hs⟩ | ⟨r, a, hr, hs, ha, he⟩⟩ | ⟨f1, -, r, a, e, hr, hs, ha⟩⟩ :=
      next_cases (hg k) (hst k)
    · exact absurd (ht r hr).1 hs
    · exfalso
      have h2 := (ht r hr).2.2 a ha
      rcases le_max_iff.mp h2 with h3 | h3
      · have : C * clipDt (st k).t t1 (st k).dt ^ 2 ≤ C * (ε * (36 / 5)) ^ 2 := by
          apply mul_le_mul_of_nonneg_left _ hC
          exact pow_le_pow_left₀ (clip_factsI (hg k).time (hlt k)).1.le hcl 2
        have h4 : C * (ε * (36 / 5)) ^ 2 ≤ 1 := by
          have hmp : (machinePrecision : ℝ) ≤ 1 / 10 ^ 17 := by simp [machinePrecision]
          calc C * (ε * (36 / 5)) ^ 2 = (C * ε ^ 2) * (36 / 5) ^ 2 := by ring
            _ ≤ (1 / 10 ^ 17) * (36 / 5) ^ 2 := by
                apply mul_le_mul_of_nonneg_right (hεC.trans hmp); positivity
            _ ≤ 1 := by norm_num
        linarith
      · linarith [mp_lt_one]
    · exact ⟨r, a, e, f1, (ht r hr).2.1, hr, hs, ha, (ht r hr).2.2 a ha⟩
  -- some accepted step after `max K1 K2`
  obtain ⟨K3, hK3, hK3a⟩ : ∃ K3 ≥ max K1 K2, (st (K3 + 1)).t = (st K3).t + clipDt (st K3).t t1 (st K3).dt ∧
      ∃ r a, st (K3 + 1) = acceptI oo (st K3) a ∧ solveAt nd la fn t1 no sc (st K3) = .ret r ∧ r.status = 0 ∧
      attemptI la fn o sc mo d d2 (st K3) (clipDt (st K3).t t1 (st K3).dt) r.success = some a := by
    by_contra hno'
    push Not at hno'
    have hrej : ∀ j, (st (max K1 K2 + j)).dt ≤ (9 / 10) ^ j * (st (max K1 K2)).dt := by
      intro j
      induction j with
      | zero => simp
      | succ j ih =>
        obtain ⟨-, ⟨-, -, -, f4, -⟩ | ⟨f1, -, r, a, e, hr, hs, ha⟩⟩ :=
          next_cases (hg (max K1 K2 + j)) (hst (max K1 K2 + j))
        · rw [show max K1 K2 + (j + 1) = max K1 K2 + j + 1 by omega]
          calc _ ≤ 9 / 10 * (st (max K1 K2 + j)).dt := f4
            _ ≤ 9 / 10 * ((9 / 10) ^ j * (st (max K1 K2)).dt) := by linarith
            _ = _ := by ring
        · exact absurd ha (hno' _ (by omega) f1 r a e hr hs)
    obtain ⟨j, hj⟩ := exists_pow_lt_of_lt_one (div_pos hε (hg (max K1 K2)).time.dt) (by norm_num : (9 / 10 : ℝ) < 1)
    rw [lt_div_iff₀ (hg (max K1 K2)).time.dt] at hj
    obtain ⟨r, a, e, f1, -, hr, hs, ha, -⟩ := hacc (max K1 K2 + j) (by omega) (by
      have := (clip_factsI (hg (max K1 K2 + j)).time (hlt _)).2.2
      have := hrej j
      linarith)
    exact hno' _ (by omega) f1 r a e hr hs ha
  -- from there on every step is accepted
  have hsmall : ∀ j, clipDt (st (K3 + 1 + j)).t t1 (st (K3 + 1 + j)).dt ≤ ε * (36 / 5) := by
    intro j
    induction j with
    | zero =>
      obtain ⟨f1, r, a, e, hr, hs, ha⟩ := hK3a
      have g1 := (attemptI_facts (hg K3).time (hlt K3) hr hs ha).2.2.1
      have g2 := hK2 K3 (by omega)
      have g3 := (clip_factsI (hg (K3 + 1)).time (hlt _)).2.2
      have g4 : (st (K3 + 1)).dt = a.newDt := by rw [e]; rfl
      rw [f1] at g2
      change clipDt (st (K3 + 1)).t t1 (st (K3 + 1)).dt ≤ _
      linarith
    | succ j ih =>
      obtain ⟨r, a, e, f1, -, hr, hs, ha, -⟩ := hacc _ (by omega) ih
      have g1 := (attemptI_facts (hg (K3 + 1 + j)).time (hlt _) hr hs ha).2.2.1
      have g2 := hK2 (K3 + 1 + j) (by omega)
      have g3 := (clip_factsI (hg (K3 + 1 + j + 1)).time (hlt _)).2.2
      have g4 : (st (K3 + 1 + j + 1)).dt = a.newDt := by rw [e]; rfl
      rw [f1] at g2
      change clipDt (st (K3 + 1 + j + 1)).t t1 (st (K3 + 1 + j + 1)).dt ≤ _
      linarith
  have hall := fun j => hacc (K3 + 1 + j) (by omega) (hsmall j)
  choose r a he ht hit hr hs ha herr using hall
  have hclip : ∀ j, clipDt (st (K3 + 1 + j)).t t1 (st (K3 + 1 + j)).dt = (st (K3 + 1 + j)).dt := by
    intro j
    have h2 := ht j
    have h3 := hlt (K3 + 1 + j + 1)
    rw [clipDt_real] at h2 ⊢
    rcases min_choice (st (K3 + 1 + j)).dt (t1 - (st (K3 + 1 + j)).t) with h4 | h4
    · exact h4
    · rw [h4] at h2; linarith
  have hdt : ∀ j, (st (K3 + 1 + j)).dt < ε := by
    intro j
    have g2 := hK2 (K3 + 1 + j) (by omega)
    rw [ht j, hclip j] at g2
    linarith
  have hnew : ∀ j, (st (K3 + 1 + (j + 1))).dt = (a j).newDt ∧ (st (K3 + 1 + (j + 1))).dts0 = (a j).newDt ∧
      (st (K3 + 1 + (j + 1))).dts1 = (st (K3 + 1 + j)).dts0 ∧ (st (K3 + 1 + (j + 1))).errs0 = (a j).err := by
    intro j
    rw [show K3 + 1 + (j + 1) = K3 + 1 + j + 1 by omega, he j]
    exact ⟨rfl, rfl, rfl, rfl⟩
  have herr1 : ∀ j, (a j).err = machinePrecision := by
    intro j
    apply le_antisymm
    · refine (herr j).trans (max_le ?_ le_rfl)
      rw [hclip j]
      have := pow_le_pow_left₀ (hg (K3 + 1 + j)).time.dt.le (hdt j).le 2
      exact (mul_le_mul_of_nonneg_left this hC).trans hεC
    · rw [(attemptI_spec (ha j)).2.2.2.1, errNorm_real]
      exact le_max_right _ _
  set S : ℝ := (1 / machinePrecision : ℝ) ^ ((1 : ℝ) / (1 + mo)) with hS
  have hS1 : 10 / 9 < S := by
    have g1 : ((10 / 9 : ℝ)) ^ (1 + mo) < 1 / machinePrecision := by
      have : ((10 / 9 : ℝ)) ^ (1 + mo) = 1 / (9 / 10) ^ (1 + mo) := by
        rw [← one_div_pow]; norm_num
      rw [this]
      exact one_div_lt_one_div_of_lt hp hmo
    have g2 := Real.rpow_lt_rpow (by positivity) g1 (expt_bounds mo).1
    rw [← Real.rpow_natCast, ← Real.rpow_mul (by norm_num)] at g2
    have : ((1 + mo : ℕ) : ℝ) * (1 / (1 + (mo : ℝ))) = 1 := by
      push_cast; field_simp
    rw [this, Real.rpow_one] at g2
    exact g2
  obtain ⟨k, hk⟩ := control_grows (q := 9 / 10 * min 8 S) (by
      rcases min_choice 8 S with h | h <;> rw [h] <;> linarith)
    (fun j => (st (K3 + 1 + (j + 1))).dt) (fun j => (hg _).time.dt) (fun j => by
      have hd := hg (K3 + 1 + (j + 2))
      have e1 := tame_newDt (hg (K3 + 1 + (j + 1 + 1))) (hit (j + 1 + 1)) (ha (j + 1 + 1)) (herr1 _)
        (by rw [(hnew (j + 1)).2.2.2, herr1]) (fun h => by
          rw [← (hnew (j + 1 + 1)).1]
          exact (hdt _).trans_le (hεm h))
      rw [hclip, (hnew (j + 1)).2.1, (hnew (j + 1)).2.2.1, (hnew j).2.1, ← (hnew (j + 1)).1, ← (hnew j).1,
        ← (hnew (j + 1 + 1)).1] at e1
      rw [show j + 2 + 1 = j + 1 + 1 + 1 by omega, e1]
      have hx := (hg (K3 + 1 + (j + 1 + 1))).time.dt
      have hx0 := (hg (K3 + 1 + (j + 1))).time.dt
      set x2 := (st (K3 + 1 + (j + 1 + 1))).dt
      set x1 := (st (K3 + 1 + (j + 1))).dt
      have hρ : 0 < x2 / x1 := div_pos hx hx0
      have hm0 : 0 < min 1 (x2 / x1) := lt_min one_pos hρ
      have hm1 : min 1 (x2 / x1) ≤ 1 := min_le_left _ _
      have hmr : min 1 (x2 / x1) ≤ x2 / x1 := min_le_right _ _
      have hb8 : min 8 S ≤ 8 := min_le_left _ _
      have hbS : min 8 S ≤ S := min_le_right _ _
      have hb0 : 0 < min 8 S := lt_min (by norm_num) (by linarith)
      have hS0 : 0 < S := by linarith
      have main : min 8 S * min 1 (x2 / x1) ≤ min 8 (min S (S * (x2 / x1))) := by
        refine le_min ?_ (le_min ?_ ?_)
        · nlinarith
        · nlinarith
        · exact mul_le_mul hbS hmr hm0.le hS0.le
      calc 9 / 10 * min 8 S * x2 * min 1 (x2 / x1) = 9 / 10 * x2 * (min 8 S * min 1 (x2 / x1)) := by ring
        _ ≤ 9 / 10 * x2 * min 8 (min S (S * (x2 / x1))) := mul_le_mul_of_nonneg_left main (by positivity)) ε
  exact absurd (hdt (k + 1)) (not_lt.mpr hk.le)

/-- the same with no further invariant -/
theorem loop_ends_tame (hno : 0 ≤ no.maxit) (hmo : (machinePrecision : ℝ) < (9 / 10) ^ (1 + mo)) {h1 : ℝ} (hh1 : 0 < h1)
    (hP : ∀ s : IrkState ℝ (sc.ns * n) n, GoodI t0 t1 s → ∃ P : IrkState ℝ (sc.ns * n) n → Prop, P s ∧
      (∀ s s', GoodI t0 t1 s → P s → irkBody nd la fn t1 o no oo sc mo d d2 s = .next s' → s'.t - s.t ≤ h1 → P s') ∧
      ∃ h0 > 0, ∃ C ≥ 0, ∀ s, GoodI t0 t1 s → s.t < t1 → P s → clipDt s.t t1 s.dt ≤ h0 →
        TameI nd la fn t1 o no sc mo d d2 C s)
    (s : IrkState ℝ (sc.ns * n) n) (hs : GoodI t0 t1 s) :
    ∃ fuel r, runLoop (irkBody nd la fn t1 o no oo sc mo d d2) fuel s = some r :=
  loop_ends_inv hmo hh1 (fun _ h => h) (fun _ _ h hb => goodI_next hno h hb) hP s hs

end Verif
