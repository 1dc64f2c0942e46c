import Verif.Prop.ErkFPEnd

/-!
# Properties C108 and C109: values that are not finite, and steps of size zero, in binary64
-/

set_option linter.unusedSectionVars false
set_option autoImplicit false

namespace Verif
open FP

section
variable [Libm] {n : ℕ} {f : FP → Vec FP n → Vec FP n} {t0 t1 dt : FP} {y0 : Vec FP n} {o : ErkOpts FP} {oo : OutOpts}
  {sc : SolverCoeffs FP} {nd : Bool} {mo : ℕ} {fuel : ℕ} {out : ErkOutput FP n}

theorem add_nan (x : FP) : x + nan = nan := by cases x <;> rfl
theorem mul_nan (x : FP) : x * nan = nan := by cases x <;> rfl
theorem div_nan (x : FP) : x / nan = nan := by cases x <;> rfl

/-- the next value of a component that is not a number is not a number -/
theorem attempt_nan {s : ErkState FP n} {k : Fin n} (h : s.y k = nan) (d : FP) (sol : ErkOutput FP n) :
    (attempt f o sc mo s d sol).yn k = nan := by
  have : (attempt f o sc mo s d sol).yn k =
      s.y k + d * combine sc (stageLoop f sc s.t d s.y (stageStart sc) s.Ks sol).1 sc.bw k := by
    unfold attempt; simp only; split_ifs <;> rfl
  rw [this, h]; rfl

/-- **C108, NaN stays.**  A component that is not a number in a recorded sample is not a number in any later one: for
every right-hand side, all options, with and without assertions. -/
theorem C108_sticky (h : erkGuts nd f t0 t1 y0 o dt sc oo fuel = some (.ret out)) (k : Fin n) :
    out.yVals.Pairwise fun y z => y k = nan → z k = nan := by
  obtain ⟨mo, s, hmo, hpos, hr, hout⟩ := erkGuts_ret h
  obtain ⟨-, recs, hrec⟩ := reach_recs (Rel := fun _ y b => y k = nan → b.y k = nan) (J := fun _ => True) trivial
    (fun _ _ _ _ => trivial) (fun s a _ _ hA _ hy => by
      subst hA
      exact attempt_nan hy _ _) hr
  have hpw : s.sol.yVals.Pairwise fun y z => y k = nan → z k = nan := by
    rw [hrec.cols.y, List.pairwise_map]
    have : IsTrans (Sample FP n) (fun a b => a.y k = nan → b.y k = nan) := ⟨fun _ _ _ h1 h2 h => h2 (h1 h)⟩
    exact List.isChain_iff_pairwise.mp hrec.chain
  rcases hout with ⟨-, rfl⟩ | ⟨-, -, -, rfl⟩ <;> exact hpw

/-- one summand that is not a number spoils the sum -/
theorem foldl_nan (g : Fin n → FP) {k : Fin n} (hk : g k = nan) : ∀ (l : List (Fin n)) (a : FP), (k ∈ l ∨ a = nan) →
    l.foldl (fun acc i => acc + g i) a = nan
  | [], a, h => by simpa using h
  | i :: l, a, h => by
    rw [List.foldl_cons]
    refine foldl_nan g hk l _ ?_
    rcases h with h | h
    · rcases List.mem_cons.mp h with rfl | h
      · exact Or.inr (by rw [hk, add_nan])
      · exact Or.inl h
    · exact Or.inr (by rw [h]; rfl)

theorem errTot_nan {y yn e : Vec FP n} {k : Fin n} (h : y k = nan) : errTot o y yn e = nan := by
  unfold errTot
  refine foldl_nan (fun i => e i / (o.absTol + o.relTol * cmax (sabs (y i)) (sabs (yn i))) *
    (e i / (o.absTol + o.relTol * cmax (sabs (y i)) (sabs (yn i))))) (k := k) ?_ _ _ (Or.inl (List.mem_finRange k))
  have e1 : cmax (sabs (y k)) (sabs (yn k)) = nan := by
    rw [h]; rfl
  rw [e1, mul_nan, add_nan, div_nan]; rfl

/-- with an error estimate that is not a number the step is accepted and the step size multiplied by 3.6 -/
theorem attempt_of_nan (hpow : ∀ y, lt (fin 0) y = true → Libm.pow nan y = nan) (hmo : mo < 2 ^ 64) (had : o.adaptive = true) {s : ErkState FP n} {k : Fin n}
    (h : s.y k = nan) (d : FP) (sol : ErkOutput FP n) :
    (attempt f o sc mo s d sol).errTot = nan ∧ (attempt f o sc mo s d sol).err = nan ∧
      (attempt f o sc mo s d sol).reject = false ∧ (attempt f o sc mo s d sol).dt = d ∧
      (attempt f o sc mo s d sol).newDt = if ltb (lit 0) o.maxDt then cmin o.maxDt (lit (9 / 10) * d * lit 4)
        else lit (9 / 10) * d * lit 4 := by
  have hN : errNorm n (nan : FP) = nan := rfl
  unfold attempt
  simp only [had, if_true, errTot_nan h, hN, true_and]
  refine ⟨by cases hl : (lit 1 : FP) <;> rfl, ?_⟩
  have e : (spow (lit 1 / (nan : FP)) (lit 1 / (lit 1 + lit mo)) : FP) = nan := by
    rw [div_nan]; exact hpow _ (expt_pos hmo)
  unfold newDt
  simp only [e]
  have e2 : cmin (lit 4) (nan : FP) = lit 4 := rfl
  rw [e2]

/-- one pass of the loop without assertions when a component is not a number -/
theorem nan_pass (hpow : ∀ y, lt (fin 0) y = true → Libm.pow nan y = nan) (hmo : mo < 2 ^ 64) (had : o.adaptive = true)
    (hms : o.maxSteps < 0) (hb2 : sc.b2.length = sc.ns) (hmx : ltb (lit 0) o.maxDt = false) (hs : StreamOK oo) {s : ErkState FP n} {k : Fin n} (h : s.y k = nan) (hlt : ltb s.t t1 = true) :
    ∃ s', erkBody true f t1 o oo sc mo s = .next s' ∧ s'.t = s.t + clipDt s.t t1 s.dt ∧
      s'.dt = lit (9 / 10) * clipDt s.t t1 s.dt * lit 4 ∧ s'.y k = nan ∧ s'.sol.status = s.sol.status ∧
      s'.sol.yVals.getLast? = some s'.y := by
  have hc := bodyCase true f t1 o oo sc mo s
  generalize hb : erkBody true f t1 o oo sc mo s = x at hc
  obtain ⟨h1, h2, h3, h4, h5⟩ := attempt_of_nan (f := f) (sc := sc) (mo := mo) hpow hmo had h (clipDt s.t t1 s.dt) s.sol.bump
  rw [hmx, if_neg (by simp)] at h5
  obtain ⟨L, e, -⟩ := attempt_sol f o sc mo s (clipDt s.t t1 s.dt) s.sol.bump
  have hst : (attempt f o sc mo s (clipDt s.t t1 s.dt) s.sol.bump).sol.status = s.sol.status := by rw [e]; rfl
  cases hc with
  | finished h => rw [hlt] at h; cases h
  | maxSteps h h0 h1 => omega
  | throws h ha hb' => exact absurd hb2 hb'
  | assertFail h ha hnd a hA he => cases hnd
  | ub h hw hs' => rw [hs hw] at hs'; cases hs'
  | accepted h' hm hb2 a hA hE hr =>
    subst hA
    refine ⟨_, rfl, ?_, h5, attempt_nan h _ _, ?_, ?_⟩
    · change s.t + (attemptAt f t1 o sc mo s).dt = _; unfold attemptAt; rw [h4]
    · unfold attemptAt
      cases hw : oo.writeToFile <;> simp [accept, ErkOutput.line, hw, hst]
    · unfold attemptAt
      cases hw : oo.writeToFile <;> simp [accept, ErkOutput.line, hw]
  | rejected h hm hb2 a hA hE had' hr =>
    subst hA
    have : (attemptAt f t1 o sc mo s).reject = false := h3
    rw [this] at hr; cases hr

/-- the step size grows at least by one half, or becomes infinite -/
theorem grow_fp {c : FP} (hd : c.IsDouble) (hf : c.isFinite = true) (h0 : 0 < c.val) :
    (lit (9 / 10) * c * lit 4 : FP) = inf false ∨ ((lit (9 / 10) * c * lit 4 : FP).IsDouble ∧ (lit (9 / 10) * c * lit 4 : FP).isFinite = true ∧
      3 / 2 * c.val ≤ (lit (9 / 10) * c * lit 4 : FP).val) := by
  have hmul : ∀ x y : FP, x.isFinite = true → y.isFinite = true → ∃ b, x * y = rnd b (x.val * y.val) := by
    intro x y hx hy
    cases x <;> cases y <;> simp [isFinite] at hx hy <;> exact ⟨_, rfl⟩
  have l9 : (lit (9 / 10) : FP).isFinite = true ∧ (89 / 100 : ℚ) ≤ (lit (9 / 10) : FP).val ∧ (lit (9 / 10) : FP).val ≤ 1 := by
    show (rnd false _).isFinite = true ∧ _ ≤ (rnd false _).val ∧ (rnd false _).val ≤ _
    decide +kernel
  have l4 : (lit 4 : FP) = fin 4 := by show rnd false 4 = fin 4; decide +kernel
  obtain ⟨a1, a2, a3⟩ := l9
  obtain ⟨b1, e1⟩ := hmul _ _ a1 hf
  have hmin := min_double (rep_val hd hf).1 h0
  have hpos : 0 < (lit (9 / 10) : FP).val * c.val := mul_pos (by linarith) h0
  have hle : (lit (9 / 10) : FP).val * c.val ≤ c.val := by nlinarith
  have hge : 89 / 100 * c.val ≤ (lit (9 / 10) : FP).val * c.val := by nlinarith
  have herr := rnQ_error_abs ((lit (9 / 10) : FP).val * c.val)
  rw [abs_of_pos hpos] at herr
  have hr1 : 3 / 8 * c.val ≤ rnQ ((lit (9 / 10) : FP).val * c.val) := by
    have := (abs_le.mp herr).1
    generalize (2 : ℚ) ^ (-1074 : ℤ) = z at *
    generalize (lit (9 / 10) : FP).val * c.val = w at *
    norm_num at this ⊢
    linarith
  have hr2 : rnQ ((lit (9 / 10) : FP).val * c.val) ≤ c.val := by
    have := rnQ_mono hle
    rwa [(rep_val hd hf).1] at this
  have hrp : 0 < rnQ ((lit (9 / 10) : FP).val * c.val) := by linarith
  rcases rnd_spec b1 ((lit (9 / 10) : FP).val * c.val) with ⟨f1, f2, -⟩ | ⟨-, f2⟩
  · rw [e1, l4]
    obtain ⟨b2, e2⟩ := hmul _ (fin 4) f1 rfl
    rw [e2, f2]
    have hv4 : (fin 4).val = 4 := rfl
    rw [hv4]
    have hq : rnQ (rnQ ((lit (9 / 10) : FP).val * c.val) * 4) = rnQ ((lit (9 / 10) : FP).val * c.val) * 4 := by
      have g1 := rnQ_double (rnQ_idem ((lit (9 / 10) : FP).val * c.val))
      have g2 := rnQ_double g1
      rw [show rnQ ((lit (9 / 10) : FP).val * c.val) * 4 = 2 * (2 * rnQ ((lit (9 / 10) : FP).val * c.val)) by ring]
      exact g2
    rcases rnd_spec b2 (rnQ ((lit (9 / 10) : FP).val * c.val) * 4) with ⟨q1, q2, -⟩ | ⟨q1, -⟩
    · refine Or.inr ⟨isDouble_rnd _ _, q1, ?_⟩
      rw [q2, hq]; linarith
    · refine Or.inl ?_
      rw [q1]
      have : ¬ (rnQ ((lit (9 / 10) : FP).val * c.val) * 4 < 0) := by linarith
      rw [decide_eq_false this]
  · exfalso
    rw [abs_of_pos hrp] at f2
    have := (rep_val hd hf).2
    rw [abs_of_pos h0] at this
    linarith

/-- what holds at the loop head once component `k` is not a number -/
structure NanState (X : ℚ) (k : Fin n) (s : ErkState FP n) : Prop where
  nan : s.y k = nan
  last : s.sol.yVals.getLast? = some s.y
  tD : s.t.IsDouble
  tF : s.t.isFinite = true
  tX : -X ≤ s.t.val

/-- the runs from `s` end within `K` passes with the status of `s`, and the last value recorded is not a number -/
def NanEnd (f : FP → Vec FP n → Vec FP n) (t1 : FP) (o : ErkOpts FP) (oo : OutOpts) (sc : SolverCoeffs FP) (mo : ℕ) (k : Fin n) (K : ℕ)
    (s : ErkState FP n) : Prop :=
  ∃ out y, runLoop (erkBody true f t1 o oo sc mo) K s = some (.ret out) ∧ out.status = s.sol.status ∧
    out.yVals.getLast? = some y ∧ y k = nan

theorem NanEnd.mono {k : Fin n} {K K' : ℕ} {s : ErkState FP n} (h : NanEnd f t1 o oo sc mo k K s) (hK : K ≤ K') :
    NanEnd f t1 o oo sc mo k K' s := by
  obtain ⟨out, y, h1, h2⟩ := h
  obtain ⟨m, rfl⟩ := Nat.exists_eq_add_of_le hK
  exact ⟨out, y, runLoop_mono m h1, h2⟩

theorem nan_done {k : Fin n} {s : ErkState FP n} (h : s.y k = nan) (hl : s.sol.yVals.getLast? = some s.y) (hlt : ltb s.t t1 = false) :
    NanEnd f t1 o oo sc mo k 1 s := by
  refine ⟨{ s.sol with acceptFrac := some (lit (s.step : ℚ) / lit (s.sol.attempt : ℚ)) }, s.y, ?_, rfl, hl, h⟩
  have : erkBody true f t1 o oo sc mo s = .done (.ret { s.sol with acceptFrac := some (lit (s.step : ℚ) / lit (s.sol.attempt : ℚ)) }) := by
    unfold erkBody
    rw [if_neg (by rw [hlt]; simp)]
  simp [runLoop, this]

theorem nan_next {k : Fin n} {K : ℕ} {s s' : ErkState FP n} (hb : erkBody true f t1 o oo sc mo s = .next s')
    (hst : s'.sol.status = s.sol.status) (h : NanEnd f t1 o oo sc mo k K s') : NanEnd f t1 o oo sc mo k (K + 1) s := by
  obtain ⟨out, y, h1, h2, h3⟩ := h
  exact ⟨out, y, by rw [runLoop_next hb]; exact h1, by rw [h2, hst], h3⟩

theorem not_ltb {x y : FP} (hx : x.isFinite = true) (hy : y.isFinite = true) (h : y.val ≤ x.val) : ltb x y = false := by
  cases hv : ltb x y with
  | false => rfl
  | true =>
    have : lt x y = true := hv
    rw [lt_fin_iff hx hy] at this
    exact absurd this (not_lt.mpr h)

theorem add_infp {x : FP} (hx : x.isFinite = true) : x + inf false = inf false := by
  cases x <;> simp [isFinite] at hx <;> rfl

theorem lt_infp {x : FP} (hx : x.isFinite = true) : ltb x (inf false) = true := by
  cases x <;> simp [isFinite] at hx <;> rfl

/-- the hypotheses on the run -/
structure NanRun (t1 : FP) (o : ErkOpts FP) (oo : OutOpts) (sc : SolverCoeffs FP) (mo : ℕ) (X : ℚ) : Prop where
  pow : ∀ y, lt (fin 0) y = true → Libm.pow FP.nan y = FP.nan
  mo : mo < 2 ^ 64
  ad : o.adaptive = true
  ms : o.maxSteps < 0
  b2 : sc.b2.length = sc.ns
  mx : ltb (lit 0) o.maxDt = false
  st : StreamOK oo
  t1D : t1.IsDouble
  t1F : t1.isFinite = true
  X1 : |t1.val| ≤ X
  Xr : rnQ X = X
  Xb : X ≤ 2 ^ 1022

theorem nan_clipped {X : ℚ} (r : NanRun t1 o oo sc mo X) {k : Fin n} {s : ErkState FP n} (h : NanState X k s) (hlt : ltb s.t t1 = true)
    (hd : clipDt s.t t1 s.dt = t1 - s.t) : NanEnd f t1 o oo sc mo k 3 s := by
  obtain ⟨s', hb, e1, e2, e3, e4, e5⟩ := nan_pass (f := f) (mo := mo) r.pow r.mo r.ad r.ms r.b2 r.mx r.st h.nan hlt
  rw [hd] at e1 e2
  have hlt' : s.t.val < t1.val := (lt_fin_iff h.tF r.t1F).mp hlt
  have hX1 := abs_le.mp r.X1
  have hsX : |s.t.val| ≤ X := abs_le.mpr ⟨h.tX, by linarith⟩
  obtain ⟨v1, v2, v3, v4⟩ := clip_value (rep_val h.tD h.tF).1 (rep_val r.t1D r.t1F).1 hlt' hsX r.X1
  have hX0 : 0 ≤ X := (abs_nonneg _).trans hsX
  have big : ∀ q : ℚ, |q| ≤ 5 / 2 * X → ¬ (2 : ℚ) ^ (1024 : ℤ) ≤ |q| := by
    intro q hq hc
    rw [e1022] at hc
    have := r.Xb
    have h7 : (0 : ℚ) < 2 ^ 1022 := by positivity
    generalize (2 : ℚ) ^ 1022 = z at *
    linarith
  have hsub : (t1 - s.t).isFinite = true ∧ (t1 - s.t).val = rnQ (t1.val - s.t.val) := by
    rcases sub_spec r.t1F h.tF with q | ⟨-, q⟩
    · exact q
    · exact absurd q (big _ (by rw [abs_of_pos v1]; exact v2))
  have hnear : |rnQ (s.t.val + rnQ (t1.val - s.t.val))| ≤ 5 / 2 * X := by
    have := abs_add_le (rnQ (s.t.val + rnQ (t1.val - s.t.val)) - t1.val) t1.val
    rw [sub_add_cancel] at this
    have := r.X1
    norm_num at v3
    linarith
  have hadd : (s.t + (t1 - s.t)).isFinite = true ∧ (s.t + (t1 - s.t)).val = rnQ (s.t.val + rnQ (t1.val - s.t.val)) := by
    rcases add_spec h.tF hsub.1 with q | ⟨-, q⟩
    · rw [hsub.2] at q; exact q
    · rw [hsub.2] at q; exact absurd q (big _ hnear)
  have hsD : (t1 - s.t).IsDouble := isDouble_add r.t1F (neg_fin h.tF).1
  have htD : s'.t.IsDouble := by rw [e1]; exact isDouble_add h.tF hsub.1
  have htF : s'.t.isFinite = true := by rw [e1]; exact hadd.1
  have htv : s'.t.val = rnQ (s.t.val + rnQ (t1.val - s.t.val)) := by rw [e1]; exact hadd.2
  refine nan_next hb e4 ?_
  by_cases hc : t1.val ≤ s'.t.val
  · exact (nan_done e3 e5 (not_ltb htF r.t1F hc)).mono (by norm_num)
  · have hc' : s'.t.val < t1.val := not_le.mp hc
    have hlt2 : ltb s'.t t1 = true := (lt_fin_iff htF r.t1F).mpr hc'
    obtain ⟨w1, w2⟩ := v4 (by rw [← htv]; exact hc')
    rw [← htv] at w1 w2
    obtain ⟨s2, hb2, g1, g2, g3, g4, g5⟩ := nan_pass (f := f) (mo := mo) r.pow r.mo r.ad r.ms r.b2 r.mx r.st e3 hlt2
    refine nan_next hb2 g4 (nan_done g3 g5 ?_)
    rw [g1]
    unfold clipDt
    by_cases hcl : ltb t1 (s'.t + s'.dt) = true
    · rw [if_pos hcl]
      have hs2 : (t1 - s'.t).isFinite = true ∧ (t1 - s'.t).val = t1.val - s'.t.val := by
        rcases sub_spec r.t1F htF with q | ⟨-, q⟩
        · rw [w1] at q; exact q
        · rw [w1] at q
          refine absurd q (big _ ?_)
          have := abs_le.mp hnear
          rw [← htv] at this
          rw [abs_of_pos (by linarith)]
          have := abs_le.mp v3
          rw [← htv] at this
          norm_num at this
          linarith
      rcases add_spec htF hs2.1 with ⟨q1, q2⟩ | ⟨-, q⟩
      · refine not_ltb q1 r.t1F ?_
        rw [q2, hs2.2, add_sub_cancel, (rep_val r.t1D r.t1F).1]
      · rw [hs2.2, add_sub_cancel, (rep_val r.t1D r.t1F).1] at q
        exact absurd q (big _ (r.X1.trans (by linarith)))
    · rw [if_neg hcl]
      rcases grow_fp hsD hsub.1 (by rw [hsub.2]; exact v1) with g | ⟨k1, k2, k3⟩
      · exfalso
        apply hcl
        rw [e2, g]
        rw [add_infp htF]
        exact lt_infp r.t1F
      · rw [← e2] at k1 k2 k3
        have hge : t1.val ≤ rnQ (s'.t.val + s'.dt.val) := by
          rw [← (rep_val r.t1D r.t1F).1]
          apply rnQ_mono
          rw [hsub.2] at k3
          linarith
        rcases add_spec htF k2 with ⟨q1, q2⟩ | ⟨q1, -⟩
        · exact not_ltb q1 r.t1F (by rw [q2]; exact hge)
        · exfalso
          apply hcl
          rw [q1]
          have : ¬ (s'.t.val + s'.dt.val < 0) := by
            intro hneg
            have := rnQ_nonpos hneg.le
            rw [hsub.2] at k3
            have h1 : t1.val ≤ s'.t.val + s'.dt.val := by linarith
            have h2 := (rep_val htD htF).2
            have h3 := (rep_val k1 k2).2
            have h4 := abs_lt.mp h2
            rcases add_spec htF k2 with ⟨q1', -⟩ | ⟨-, q⟩
            · rw [q1] at q1'; cases q1'
            · rw [abs_of_nonpos this] at q
              have := abs_le.mp r.X1
              rw [e1022] at q
              have hb := r.Xb
              have h7 : (0 : ℚ) < 2 ^ 1022 := by positivity
              generalize (2 : ℚ) ^ 1022 = z at *
              linarith
          rw [decide_eq_false this]
          exact lt_infp r.t1F

/-- the loop ends once a component is not a number -/
theorem nan_ends {X : ℚ} (r : NanRun t1 o oo sc mo X) {k : Fin n} : ∀ (K : ℕ) (s : ErkState FP n), NanState X k s →
    (s.dt = inf false ∨ (s.dt.IsDouble ∧ s.dt.isFinite = true ∧ 0 < s.dt.val ∧ 3 * X ≤ (3 / 2) ^ K * s.dt.val)) →
    NanEnd f t1 o oo sc mo k (K + 3) s := by
  intro K
  induction K with
  | zero =>
    intro s h hd
    by_cases hlt : ltb s.t t1 = true
    · refine nan_clipped r h hlt ?_
      unfold clipDt
      rw [if_pos]
      have hlt' : s.t.val < t1.val := (lt_fin_iff h.tF r.t1F).mp hlt
      have hX1 := abs_le.mp r.X1
      have hX := h.tX
      rcases hd with hd | ⟨d1, d2, d3, d4⟩
      · rw [hd, add_infp h.tF]; exact lt_infp r.t1F
      · rw [pow_zero, one_mul] at d4
        have hge : 2 * X ≤ rnQ (s.t.val + s.dt.val) := by
          rw [← rnQ_double r.Xr]
          exact rnQ_mono (by linarith)
        rcases add_spec h.tF d2 with ⟨q1, q2⟩ | ⟨q1, -⟩
        · exact (lt_fin_iff r.t1F q1).mpr (by rw [q2]; linarith)
        · rw [q1, decide_eq_false (by linarith)]; exact lt_infp r.t1F
    · exact (nan_done h.nan h.last (by simpa using hlt)).mono (by omega)
  | succ K ih =>
    intro s h hd
    by_cases hlt : ltb s.t t1 = true
    · by_cases hcl : ltb t1 (s.t + s.dt) = true
      · exact (nan_clipped r h hlt (by unfold clipDt; rw [if_pos hcl])).mono (by omega)
      · rcases hd with hd | ⟨d1, d2, d3, d4⟩
        · exfalso; apply hcl
          rw [hd, add_infp h.tF]; exact lt_infp r.t1F
        · obtain ⟨s', hb, e1, e2, e3, e4, e5⟩ := nan_pass (f := f) (mo := mo) r.pow r.mo r.ad r.ms r.b2 r.mx r.st h.nan hlt
          have hcd : clipDt s.t t1 s.dt = s.dt := by unfold clipDt; rw [if_neg hcl]
          rw [hcd] at e1 e2
          have hle : le s.t (s.t + s.dt) = true := le_add_nonneg h.tD h.tF (by rw [le_fin_iff rfl d2]; exact d3.le)
          have hfin : (s.t + s.dt).isFinite = true := by
            rcases add_spec h.tF d2 with ⟨q1, -⟩ | ⟨q1, -⟩
            · exact q1
            · exfalso
              rw [q1] at hle hcl
              by_cases hneg : s.t.val + s.dt.val < 0
              · rw [decide_eq_true hneg] at hle
                have := h.tF
                cases ht : s.t <;> rw [ht] at this hle
                · cases this
                · cases this
                · exact absurd hle (by simp [FP.le, lt, FP.eq])
                · exact absurd hle (by simp [FP.le, lt, FP.eq])
              · rw [decide_eq_false hneg] at hcl
                exact hcl (lt_infp r.t1F)
          have hst : NanState X k s' := ⟨e3, e5, by rw [e1]; exact isDouble_add h.tF d2, by rw [e1]; exact hfin, by
            rw [e1]
            have := (le_fin_iff h.tF hfin).mp hle
            have := h.tX
            linarith⟩
          refine nan_next hb e4 (ih s' hst ?_)
          rw [e2]
          rcases grow_fp d1 d2 d3 with g | ⟨g1, g2, g3⟩
          · exact Or.inl g
          · refine Or.inr ⟨g1, g2, by linarith, d4.trans ?_⟩
            rw [pow_succ, mul_assoc]
            exact mul_le_mul_of_nonneg_left g3 (by positivity)
    · exact (nan_done h.nan h.last (by simpa using hlt)).mono (by omega)

theorem run_of_reach {S R : Type} {body : S → LoopStep S R} {s s' : S} (h : Reach body s s') {K : ℕ} {x : Outcome R}
    (hr : runLoop body K s' = some x) : ∃ K', runLoop body K' s = some x := by
  induction h generalizing K with
  | refl => exact ⟨K, hr⟩
  | tail _ hb ih => exact ih (K := K + 1) (by rw [runLoop_next hb]; exact hr)

/-- the last record is the current value -/
theorem last_reach {s0 s : ErkState FP n} (h0 : s0.sol.yVals.getLast? = some s0.y)
    (hr : Reach (erkBody nd f t1 o oo sc mo) s0 s) : s.sol.yVals.getLast? = some s.y := by
  refine hr.inv (Inv := fun s => s.sol.yVals.getLast? = some s.y) h0 ?_
  intro a b ha hb
  have hc := bodyCase nd f t1 o oo sc mo a
  rw [hb] at hc
  obtain ⟨L, e, -⟩ := attempt_sol f o sc mo a (clipDt a.t t1 a.dt) a.sol.bump
  have hy : (attempt f o sc mo a (clipDt a.t t1 a.dt) a.sol.bump).sol.yVals = a.sol.yVals := by rw [e]; rfl
  cases hc with
  | accepted _ _ _ q hA =>
    subst hA
    unfold attemptAt
    cases hw : oo.writeToFile <;> simp [accept, ErkOutput.line, hw]
  | rejected _ _ _ q hA =>
    subst hA
    unfold attemptAt
    cases hw : oo.writeToFile <;> simp [rejectStep, ErkOutput.line, hw, hy, ha]

/-- **C108, silent success.**  Without assertions, an adaptive run in binary64 (no step limit, no bound on the step size) in
which a component of the solution stops being a number, at a state with a positive step size, always ends, reports
SUCCESS and returns the NaN: from then on no step is ever rejected.  `pow` is assumed to be non-negative for a base that
is not negative, and NaN for a base that is NaN. -/
theorem C108_nan_succeeds (hp : ∀ y, lt (fin 0) y = true → Libm.pow nan y = nan)
    (hpow : ∀ x y, x ≠ negZero → lt x (fin 0) = false → lt (Libm.pow x y) (fin 0) = false)
    (hmo : minOrder sc = some mo) (hb2 : sc.b2.length = sc.ns) (hs : StreamOK oo)
    (had : o.adaptive = true) (hms : o.maxSteps < 0) (hmd : o.maxDt.IsDouble) (hmx : ltb (lit 0) o.maxDt = false)
    (h0 : t0.IsDouble) (h1 : t1.IsDouble) (f0 : t0.isFinite = true) (f1 : t1.isFinite = true)
    (hX : max |t0.val| |t1.val| ≤ 2 ^ 1022) (hdd : dt.IsDouble) (hdt : le (fin 0) dt = true)
    {s : ErkState FP n} (hr : Reach (erkBody true f t1 o oo sc mo) (erkInit f t0 y0 (clipDt t0 t1 dt) sc) s) {k : Fin n}
    (hk : s.y k = nan) (hpos : lt (fin 0) s.dt = true) :
    ∃ fuel out y, erkGuts true f t0 t1 y0 o dt sc oo fuel = some (.ret out) ∧ out.status = 0 ∧
      out.yVals.getLast? = some y ∧ y k = nan := by
  have e1 : (erkInit f t0 y0 (clipDt t0 t1 dt) sc).t = t0 := by
    unfold erkInit; by_cases hf : sc.fsal = true <;> simp [hf]
  have e2 : (erkInit f t0 y0 (clipDt t0 t1 dt) sc).dt = clipDt t0 t1 dt := by
    unfold erkInit; by_cases hf : sc.fsal = true <;> simp [hf]
  have e3 : (erkInit f t0 y0 (clipDt t0 t1 dt) sc).sol.status = 0 := by
    unfold erkInit; by_cases hf : sc.fsal = true <;> simp [hf, evalFun]
  have e4 : (erkInit f t0 y0 (clipDt t0 t1 dt) sc).sol.yVals.getLast? = some (erkInit f t0 y0 (clipDt t0 t1 dt) sc).y := by
    unfold erkInit; by_cases hf : sc.fsal = true <;> simp [hf, evalFun]
  have hX0 : |t0.val| ≤ max |t0.val| |t1.val| := le_max_left _ _
  have hX1 : |t1.val| ≤ max |t0.val| |t1.val| := le_max_right _ _
  have hspan : (t1 - t0).isFinite = true := by
    rcases sub_spec f1 f0 with ⟨q, -⟩ | ⟨-, q⟩
    · exact q
    · exfalso
      have he := rnQ_error_abs (t1.val - t0.val)
      have h3 : |t1.val - t0.val| ≤ 2 * max |t0.val| |t1.val| := (abs_sub _ _).trans (by linarith)
      have h5 := abs_add_le (rnQ (t1.val - t0.val) - (t1.val - t0.val)) (t1.val - t0.val)
      rw [sub_add_cancel] at h5
      rw [e1022] at q
      have hz : (2 : ℚ) ^ (-1074 : ℤ) ≤ 1 := by
        have := zpow2_le (show (-1074 : ℤ) ≤ 0 by norm_num)
        simpa using this
      have hbig : (1 : ℚ) ≤ 2 ^ 1022 := one_le_pow₀ (by norm_num)
      generalize (2 : ℚ) ^ (-1074 : ℤ) = z at *
      generalize (2 : ℚ) ^ 1022 = w at *
      norm_num at he
      linarith
  have hinit : MonoInv t0 t1 (erkInit f t0 y0 (clipDt t0 t1 dt) sc) := by
    have hne : t0 ≠ nan := by intro hc; rw [hc] at f0; cases f0
    rw [MonoInv, e1, e2]
    refine ⟨h0, le_refl' hne, fun hlt => ?_⟩
    obtain ⟨c1, c2, c3⟩ := clip_fp f0 f1 hspan (le_refl' hne) hlt hdt hdd
    exact ⟨by rw [le_fin_iff rfl c2]; exact c3, c1⟩
  obtain ⟨i1, i2, i3⟩ := hr.inv (Inv := MonoInv t0 t1) hinit (fun a b ha hb => monoInv_next hpow f0 f1 hspan hmd ha hb)
  have hlast := last_reach e4 hr
  have hstat : s.sol.status = 0 := by
    refine hr.inv (Inv := fun s => s.sol.status = 0) e3 ?_
    intro a b ha hb
    have hc := bodyCase true f t1 o oo sc mo a
    rw [hb] at hc
    obtain ⟨L, e, -⟩ := attempt_sol f o sc mo a (clipDt a.t t1 a.dt) a.sol.bump
    have hy : (attempt f o sc mo a (clipDt a.t t1 a.dt) a.sol.bump).sol.status = 0 := by rw [e]; exact ha
    cases hc with
    | accepted _ _ _ q hA =>
      subst hA
      unfold attemptAt
      cases hw : oo.writeToFile <;> simp [accept, ErkOutput.line, hw, hy]
    | rejected _ _ _ q hA =>
      subst hA
      unfold attemptAt
      cases hw : oo.writeToFile <;> simp [rejectStep, ErkOutput.line, hw, hy]
  have key : ∃ K, NanEnd f t1 o oo sc mo k K s := by
    by_cases hlt : ltb s.t t1 = true
    · have htf := finite_of_lt f0 f1 i2 hlt
      have r : NanRun t1 o oo sc mo (max |t0.val| |t1.val|) := ⟨hp, minOrder_lt hmo, had, hms, hb2, hmx, hs, h1, f1, hX1, by
        rcases max_choice |t0.val| |t1.val| with h | h <;> rw [h]
        · rcases abs_choice t0.val with h' | h' <;> rw [h']
          · exact (rep_val h0 f0).1
          · rw [rnQ_neg, (rep_val h0 f0).1]
        · rcases abs_choice t1.val with h' | h' <;> rw [h']
          · exact (rep_val h1 f1).1
          · rw [rnQ_neg, (rep_val h1 f1).1], hX⟩
      have hst : NanState (max |t0.val| |t1.val|) k s := ⟨hk, hlast, i1, htf, by
        have := (le_fin_iff f0 htf).mp i2
        have := (abs_le.mp hX0).1
        linarith⟩
      by_cases hf : s.dt.isFinite = true
      · have hd0 : 0 < s.dt.val := (lt_fin_iff rfl hf).mp hpos
        obtain ⟨K, hK⟩ := pow_unbounded_of_one_lt (3 * max |t0.val| |t1.val| / s.dt.val) (show (1 : ℚ) < 3 / 2 by norm_num)
        refine ⟨_, nan_ends r K s hst (Or.inr ⟨(i3 hlt).2, hf, hd0, ?_⟩)⟩
        rw [div_lt_iff₀ hd0] at hK
        exact hK.le
      · refine ⟨_, nan_ends r 0 s hst (Or.inl ?_)⟩
        cases hv : s.dt with
        | nan => rw [hv] at hpos; simp [lt] at hpos
        | inf b => rw [hv] at hpos; cases b <;> simp [lt] at hpos ⊢
        | negZero => rw [hv] at hf; simp [isFinite] at hf
        | fin q => rw [hv] at hf; simp [isFinite] at hf
    · exact ⟨1, nan_done hk hlast (by simpa using hlt)⟩
  obtain ⟨K, out, y, g1, g2, g3, g4⟩ := key
  obtain ⟨fuel, hf⟩ := run_of_reach hr g1
  refine ⟨fuel, out, y, ?_, by rw [g2, hstat], g3, g4⟩
  unfold erkGuts
  simp only [Bool.not_true, Bool.false_and, Bool.false_eq_true, if_false, hmo]
  exact hf

theorem errTot_nan_est {y yn e : Vec FP n} {k : Fin n} (h : e k = nan) : errTot o y yn e = nan := by
  unfold errTot
  refine foldl_nan (fun i => e i / (o.absTol + o.relTol * cmax (sabs (y i)) (sabs (yn i))) *
    (e i / (o.absTol + o.relTol * cmax (sabs (y i)) (sabs (yn i))))) (k := k) ?_ _ _ (Or.inl (List.mem_finRange k))
  rw [h]; rfl

/-- if the new value of a finite component is not a number, neither is the error estimate -/
theorem est_nan {y d dy dalt : FP} (hy : y.isFinite = true) (hd : d.isFinite = true) (h : y + d * dy = nan) : d * (dalt - dy) = nan := by
  have h1 : d * dy = nan := by
    cases hv : d * dy with
    | nan => rfl
    | inf b => rw [hv] at h; cases y <;> simp [isFinite] at hy <;> simp [HAdd.hAdd, Add.add, FP.add] at h
    | negZero =>
      rw [hv] at h
      have := add_spec hy (y := negZero) rfl
      rw [h] at this
      rcases this with ⟨q, -⟩ | ⟨q, -⟩ <;> cases q
    | fin q =>
      rw [hv] at h
      have := add_spec hy (y := fin q) rfl
      rw [h] at this
      rcases this with ⟨q, -⟩ | ⟨q, -⟩ <;> cases q
  have h2 : dy = nan ∨ d.val = 0 ∧ ∃ b, dy = inf b := by
    cases dy with
    | nan => exact Or.inl rfl
    | inf b =>
      refine Or.inr ⟨?_, b, rfl⟩
      by_contra hc
      cases d <;> simp [isFinite] at hd
      · exact hc rfl
      · rename_i q
        have : (fin q : FP) * inf b = if q = 0 then nan else inf (xor (fin q).isNeg b) := rfl
        rw [this, if_neg (by simpa [val] using hc)] at h1
        cases h1
    | negZero =>
      exfalso
      have : ∃ c q, d * negZero = rnd c q := by cases d <;> simp [isFinite] at hd <;> exact ⟨_, _, rfl⟩
      obtain ⟨c, q, e⟩ := this
      rw [e] at h1; exact rnd_ne_nan _ _ h1
    | fin p =>
      exfalso
      have : ∃ c q, d * fin p = rnd c q := by cases d <;> simp [isFinite] at hd <;> exact ⟨_, _, rfl⟩
      obtain ⟨c, q, e⟩ := this
      rw [e] at h1; exact rnd_ne_nan _ _ h1
  rcases h2 with rfl | ⟨h0, b, rfl⟩
  · have : dalt - nan = nan := by cases dalt <;> rfl
    rw [this, mul_nan]
  · have : dalt - inf b = nan ∨ ∃ c, dalt - inf b = inf c := by
      cases dalt with
      | nan => exact Or.inl rfl
      | inf a => cases a <;> cases b <;> first | exact Or.inl rfl | exact Or.inr ⟨_, rfl⟩
      | negZero => exact Or.inr ⟨_, rfl⟩
      | fin q => exact Or.inr ⟨_, rfl⟩
    rcases this with e | ⟨c, e⟩ <;> rw [e]
    · exact mul_nan _
    · cases d <;> simp [isFinite] at hd
      · rfl
      · rename_i q
        have : (fin q : FP) * inf c = if q = 0 then nan else inf (xor (fin q).isNeg c) := rfl
        rw [this, if_pos (by simpa [val] using h0)]

/-- **C108 (the first value that is not finite).**  With assertions enabled, an adaptive run in binary64 never records a
NaN after a finite value: if a run leaves the finite numbers, the first such value it records is an infinity, which
it accepts.  Missing for the full statement `C108_claim`: the infinities (see `C108_overflow`) and runs without
assertions (see `C108_nan_succeeds`). -/
theorem C108_first_partial (hpow : ∀ x y, x ≠ negZero → lt x (fin 0) = false → lt (Libm.pow x y) (fin 0) = false)
    (had : o.adaptive = true) (hmd : o.maxDt.IsDouble)
    (h0 : t0.IsDouble) (f0 : t0.isFinite = true) (f1 : t1.isFinite = true) (hspan : (t1 - t0).isFinite = true) (hdd : dt.IsDouble)
    (h : erkGuts false f t0 t1 y0 o dt sc oo fuel = some (.ret out)) :
    out.yVals.IsChain fun y z => (∀ i, (y i).isFinite = true) → ∀ i, z i ≠ nan := by
  obtain ⟨mo, s, hmo, hpos, hr, hout⟩ := erkGuts_ret h
  have e1 : (erkInit f t0 y0 (clipDt t0 t1 dt) sc).t = t0 := by
    unfold erkInit; by_cases hf : sc.fsal = true <;> simp [hf]
  have e2 : (erkInit f t0 y0 (clipDt t0 t1 dt) sc).dt = clipDt t0 t1 dt := by
    unfold erkInit; by_cases hf : sc.fsal = true <;> simp [hf]
  have hinit : MonoInv t0 t1 (erkInit f t0 y0 (clipDt t0 t1 dt) sc) := by
    have hne : t0 ≠ nan := by intro hc; rw [hc] at f0; cases f0
    rw [MonoInv, e1, e2]
    refine ⟨h0, le_refl' hne, fun hlt => ?_⟩
    have hp := hpos.resolve_left (by decide)
    have hp' : lt (fin 0) (clipDt t0 t1 dt) = true := hp
    refine ⟨by unfold FP.le; rw [hp']; rfl, ?_⟩
    unfold clipDt; split_ifs
    · exact isDouble_add f1 (neg_fin f0).1
    · exact hdd
  obtain ⟨-, recs, hrec⟩ := reach_recs' (Rel := fun _ y b => (∀ i, (y i).isFinite = true) → ∀ i, b.y i ≠ nan)
    (J := MonoInv t0 t1) hinit (fun a b ha hb => monoInv_next hpow f0 f1 hspan hmd ha hb)
    (fun s a hJ hlt hA hE hr hy i hc => by
      obtain ⟨i1, i2, i3⟩ := hJ
      obtain ⟨c1, c2, c3⟩ := clip_fp f0 f1 hspan i2 hlt (i3 hlt).1 (i3 hlt).2
      have hE' := hE had rfl
      subst hA
      have hyn : s.y i + clipDt s.t t1 s.dt *
          combine sc (stageLoop f sc s.t (clipDt s.t t1 s.dt) s.y (stageStart sc) s.Ks s.sol.bump).1 sc.bw i = nan := by
        have : (attemptAt f t1 o sc mo s).yn i = s.y i + clipDt s.t t1 s.dt *
          combine sc (stageLoop f sc s.t (clipDt s.t t1 s.dt) s.y (stageStart sc) s.Ks s.sol.bump).1 sc.bw i := by
          unfold attemptAt attempt; simp only [had, if_true]
        rw [← this]; exact hc
      have het : (attemptAt f t1 o sc mo s).errTot = nan := by
        have := est_nan (dalt := combine sc (stageLoop f sc s.t (clipDt s.t t1 s.dt) s.y (stageStart sc) s.Ks s.sol.bump).1 sc.bw2 i)
          (hy i) c2 hyn
        unfold attemptAt attempt
        simp only [had, if_true]
        exact errTot_nan_est (k := i) this
      rw [het] at hE'
      cases hE') hr
  have hch : s.sol.yVals.IsChain fun y z => (∀ i, (y i).isFinite = true) → ∀ i, z i ≠ nan := by
    rw [hrec.cols.y, List.isChain_map]
    exact hrec.chain
  rcases hout with ⟨-, rfl⟩ | ⟨-, -, -, rfl⟩ <;> exact hch

end

/-! ### C108: the refutation -/

/-- **C108, the claim**: an explicit run in binary64 that starts at finite values and reports SUCCESS recorded finite values
only (with and without assertions, all methods, right-hand sides and options). -/
def C108_claim : Prop := ∀ (_ : Libm) (nd : Bool) (m : ℤ) (_ : m ∈ erkImplemented) (f : FP → Vec FP 1 → Vec FP 1) (t0 t1 dt : FP) (y0 : Vec FP 1)
  (o : ErkOpts FP) (fuel : ℕ) (out : ErkOutput FP 1), (∀ k, (y0 k).isFinite = true) →
  erkOdeint nd f t0 t1 y0 o OutOpts.dflt m dt fuel = some (.ret out) → out.status = 0 → ∀ y ∈ out.yVals, ∀ k, (y k).isFinite = true

/-- status and recorded values of a run that returned -/
def valsOf {n : ℕ} : Option (Outcome (ErkOutput FP n)) → Option (ℤ × List (List FP))
  | some (.ret out) => some (out.status, out.yVals.map fun y => (List.finRange n).map y)
  | _ => none

/-- **C108, overflow**: with and without assertions, the adaptive solution of `y' = 2^1023` from `2^1023` over `[0, 1]` by
BOGACKI_SHAMPINE_32 overflows; the infinity is accepted (the tolerance is then infinite, too) and the run reports
SUCCESS. -/
theorem C108_overflow : letI := powOne
    ∀ nd, valsOf (erkOdeint nd (fun _ _ _ => fin (2 ^ 1023)) (fin 0) (fin 1) (fun _ : Fin 1 => fin (2 ^ 1023)) fpAdapt OutOpts.dflt 120
      (fin 1) 2) = some (0, [[fin (2 ^ 1023)], [inf false]]) := by
  decide +kernel

theorem ret_of_vals {n : ℕ} {r : Option (Outcome (ErkOutput FP n))} {k : ℤ} {l : List (List FP)}
    (h : valsOf r = some (k, l)) : ∃ out, r = some (.ret out) ∧ out.status = k ∧ out.yVals.map (fun y => (List.finRange n).map y) = l := by
  unfold valsOf at h
  split at h
  · rename_i out
    simp only [Option.some.injEq, Prod.mk.injEq] at h
    exact ⟨out, rfl, h.1, h.2⟩
  · cases h

/-- **C108 is false**, assertions or not. -/
theorem C108_refuted : ¬ C108_claim := by
  intro h
  let : Libm := powOne
  obtain ⟨out, h1, h2, h3⟩ := ret_of_vals (C108_overflow false)
  have hmem : [inf false] ∈ out.yVals.map (fun y => (List.finRange 1).map y) := by rw [h3]; simp
  obtain ⟨y, hy, e⟩ := List.mem_map.mp hmem
  have := h powOne false 120 (by decide) _ _ _ _ _ _ _ _ (fun _ => rfl) h1 h2 y hy 0
  have e0 : y 0 = inf false := by
    have : (List.finRange 1).map y = [y 0] := rfl
    rw [this] at e
    simpa using e
  rw [e0] at this
  cases this

/-! ### C109: steps of size zero -/

section
variable [Libm] {n : ℕ} {f : FP → Vec FP n → Vec FP n} {t0 t1 dt : FP} {y0 : Vec FP n} {o : ErkOpts FP} {oo : OutOpts}
  {sc : SolverCoeffs FP} {nd : Bool} {mo : ℕ} {fuel : ℕ} {out : ErkOutput FP n} {s0 : ErkState FP n}

/-- a zero of either sign -/
def IsZero (x : FP) : Prop := x.isFinite = true ∧ x.val = 0

theorem mul_zero_fp {x y : FP} (hx : x.isFinite = true) (hy : y.isFinite = true) (h : x.val = 0 ∨ y.val = 0) : IsZero (x * y) := by
  have hmul : ∃ b, x * y = rnd b (x.val * y.val) := by
    cases x <;> cases y <;> simp [isFinite] at hx hy <;> exact ⟨_, rfl⟩
  obtain ⟨b, hb⟩ := hmul
  have e : x.val * y.val = 0 := by rcases h with h | h <;> simp [h]
  rw [hb, e]
  have : rnd b 0 = zeroS b := by unfold rnd; rw [if_pos rfl]
  rw [this]
  exact isFinite_zeroS b

theorem cmin_zero {z m : FP} (hz : IsZero z) (h0 : ltb (lit 0) m = true) : IsZero (cmin m z) := by
  unfold cmin
  rw [if_pos]
  · exact hz
  · have h0' : lt (fin 0) m = true := h0
    show lt z m = true
    by_cases hf : m.isFinite = true
    · rw [lt_fin_iff hz.1 hf, hz.2]
      exact (lt_fin_iff rfl hf).mp h0'
    · cases m with
      | nan => simp [lt] at h0'
      | inf b =>
        cases b with
        | false => exact lt_infp hz.1
        | true => simp [lt] at h0'
      | negZero => simp [isFinite] at hf
      | fin q => simp [isFinite] at hf

/-- a step of size zero is followed by a step of size zero -/
theorem newDt_zero (hpow : ∀ x y, x ≠ negZero → lt x (fin 0) = false → lt (Libm.pow x y) (fin 0) = false) {d err : FP} (hd : IsZero d)
    (herr : lt err (machinePrecision : FP) = false) : IsZero (newDt o mo d err) := by
  have hc := scale_fin (mo := mo) hpow herr
  have h9 : (lit (9 / 10) : FP).isFinite = true := by
    show (rnd false (9 / 10)).isFinite = true
    decide +kernel
  have z1 := mul_zero_fp h9 hd.1 (Or.inr hd.2)
  have z2 := mul_zero_fp z1.1 hc.1 (Or.inl z1.2)
  unfold newDt
  simp only
  split_ifs with hm
  · exact cmin_zero z2 hm
  · exact z2

/-- what holds at the loop head once the step size is zero -/
structure ZeroState (τ : ℚ) (s : ErkState FP n) : Prop where
  tD : s.t.IsDouble
  tF : s.t.isFinite = true
  tv : s.t.val = τ
  dz : IsZero s.dt

theorem add_zero_fp {t d : FP} (hD : t.IsDouble) (hF : t.isFinite = true) (hd : IsZero d) :
    (t + d).IsDouble ∧ (t + d).isFinite = true ∧ (t + d).val = t.val := by
  refine ⟨isDouble_add hF hd.1, ?_⟩
  rcases add_spec hF hd.1 with ⟨q1, q2⟩ | ⟨-, q⟩
  · exact ⟨q1, by rw [q2, hd.2, add_zero, (rep_val hD hF).1]⟩
  · rw [hd.2, add_zero, (rep_val hD hF).1] at q
    exact absurd q (not_le.mpr (rep_val hD hF).2)

theorem clip_zero {t d : FP} (hD : t.IsDouble) (hF : t.isFinite = true) (hd : IsZero d) (f1 : t1.isFinite = true) (hlt : t.val < t1.val) :
    clipDt t t1 d = d := by
  obtain ⟨-, a2, a3⟩ := add_zero_fp hD hF hd
  unfold clipDt
  rw [if_neg]
  rw [not_ltb f1 a2 (by rw [a3]; exact hlt.le)]
  simp

theorem zero_next (hpow : ∀ x y, x ≠ negZero → lt x (fin 0) = false → lt (Libm.pow x y) (fin 0) = false) (f1 : t1.isFinite = true) {τ : ℚ}
    (hτ : τ < t1.val) {s s' : ErkState FP n} (h : ZeroState τ s) (hb : erkBody nd f t1 o oo sc mo s = .next s') : ZeroState τ s' := by
  have hlt' : s.t.val < t1.val := by rw [h.tv]; exact hτ
  have hcl := clip_zero h.tD h.tF h.dz f1 hlt'
  obtain ⟨a1, a2, a3⟩ := add_zero_fp h.tD h.tF h.dz
  have hc := bodyCase nd f t1 o oo sc mo s
  rw [hb] at hc
  have hd : (attemptAt f t1 o sc mo s).dt = s.dt := by
    unfold attemptAt attempt; simp only; split_ifs <;> exact hcl
  have hnd : IsZero (attemptAt f t1 o sc mo s).newDt := by
    cases had : o.adaptive with
    | true =>
      have : (attemptAt f t1 o sc mo s).newDt = newDt o mo (clipDt s.t t1 s.dt)
          (errNorm n (attemptAt f t1 o sc mo s).errTot) := by
        simp [attemptAt, attempt, had]
      rw [this, hcl]
      exact newDt_zero hpow h.dz (errNorm_not_lt _ _)
    | false =>
      have : (attemptAt f t1 o sc mo s).newDt = clipDt s.t t1 s.dt := by
        simp [attemptAt, attempt, had]
      rw [this, hcl]; exact h.dz
  cases hc with
  | accepted _ _ _ q hA =>
    subst hA
    refine ⟨?_, ?_, ?_, hnd⟩
    · show (s.t + (attemptAt f t1 o sc mo s).dt).IsDouble; rw [hd]; exact a1
    · show (s.t + (attemptAt f t1 o sc mo s).dt).isFinite = true; rw [hd]; exact a2
    · show (s.t + (attemptAt f t1 o sc mo s).dt).val = τ; rw [hd, a3, h.tv]
  | rejected _ _ _ q hA =>
    subst hA
    exact ⟨h.tD, h.tF, h.tv, hnd⟩

/-- **C109, zero is absorbing.**  Once the step size of a run in binary64 is zero before the end of the interval, the run never
reports success: with a limit on the number of steps it can only end with MAX_STEPS_EXCEEDED, without one it never
returns, for every right-hand side, every tableau and all options. -/
theorem C109_absorbing (hpow : ∀ x y, x ≠ negZero → lt x (fin 0) = false → lt (Libm.pow x y) (fin 0) = false) (f1 : t1.isFinite = true)
    {s : ErkState FP n} (hD : s.t.IsDouble) (hF : s.t.isFinite = true) (hlt : s.t.val < t1.val) (hz : IsZero s.dt) (fuel : ℕ)
    (h : runLoop (erkBody nd f t1 o oo sc mo) fuel s = some (.ret out)) : out.status = 128 ∧ 0 ≤ o.maxSteps := by
  refine runLoop_inv (Inv := ZeroState s.t.val) (P := fun r => ∀ out, r = .ret out → out.status = 128 ∧ 0 ≤ o.maxSteps)
    (fun a b ha hb => zero_next hpow f1 hlt ha hb) ?_ ⟨hD, hF, rfl, hz⟩ h out rfl
  intro a r ha hb out hr
  subst hr
  have hla : ltb a.t t1 = true := (lt_fin_iff ha.tF f1).mpr (by rw [ha.tv]; exact hlt)
  have hc := bodyCase nd f t1 o oo sc mo a
  rw [hb] at hc
  generalize hx : (LoopStep.done (Outcome.ret out) : LoopStep (ErkState FP n) (ErkOutput FP n)) = x at hc
  cases hc with
  | finished h => rw [hla] at h; cases h
  | maxSteps h h0 h1 => cases hx; exact ⟨rfl, h0⟩
  | throws => cases hx
  | assertFail => cases hx
  | ub => cases hx
  | accepted => cases hx
  | rejected => cases hx

/-- **C109, an infinite error estimate stops the clock.**  If the error of an attempt in binary64 overflows, the attempt is
rejected and the next step size is zero.  `pow` of zero is assumed to be zero. -/
theorem C109_overflow_zero (hz : ∀ y, lt (fin 0) y = true → Libm.pow (fin 0) y = fin 0) (hmo : mo < 2 ^ 64) (had : o.adaptive = true) {s : ErkState FP n} {d : FP}
    (hd : d.IsDouble) (hf : d.isFinite = true) (h0 : 0 ≤ d.val) (sol : ErkOutput FP n)
    (herr : (attempt f o sc mo s d sol).err = inf false) :
    (attempt f o sc mo s d sol).reject = true ∧ IsZero (attempt f o sc mo s d sol).newDt := by
  have hfin : (lit (9 / 10) * d : FP).isFinite = true := by
    have h9 : (lit (9 / 10) : FP).isFinite = true ∧ 0 ≤ (lit (9 / 10) : FP).val ∧ (lit (9 / 10) : FP).val ≤ 1 := by
      show (rnd false (9 / 10)).isFinite = true ∧ 0 ≤ (rnd false (9 / 10)).val ∧ (rnd false (9 / 10)).val ≤ 1
      decide +kernel
    obtain ⟨hr, hb⟩ := rep_val hd hf
    rcases (mul_nonneg_fin h9.1 hf h9.2.1 h0).2 with ⟨p, -⟩ | p
    · exact p
    · exfalso
      have h2 := rnQ_mono (show (lit (9 / 10) : FP).val * d.val ≤ d.val by nlinarith [h9.2.2])
      rw [hr] at h2
      rw [abs_of_nonneg (rnQ_nonneg (mul_nonneg h9.2.1 h0))] at p
      rw [abs_of_nonneg h0] at hb
      linarith
  have hrej : (attempt f o sc mo s d sol).reject = leb (lit 1) (attempt f o sc mo s d sol).err := by
    unfold attempt; simp only [had, if_true]
  have hnd : (attempt f o sc mo s d sol).newDt = newDt o mo d (attempt f o sc mo s d sol).err := by
    unfold attempt; simp only [had, if_true]
  rw [hrej, hnd, herr]
  have l1 : (lit 1 : FP) = fin 1 := by show rnd false 1 = fin 1; decide +kernel
  have l4 : (lit 4 : FP) = fin 4 := by show rnd false 4 = fin 4; decide +kernel
  refine ⟨by rw [l1]; rfl, ?_⟩
  have e : (lit 1 / inf false : FP) = fin 0 := by rw [l1]; rfl
  have e2 : cmin (lit 4) (fin 0 : FP) = fin 0 := by rw [l4]; unfold cmin; rw [if_pos]; show lt _ _ = true; decide +kernel
  unfold newDt
  simp only [e]
  have e3 : (spow (fin 0) (lit 1 / (lit 1 + lit mo)) : FP) = fin 0 := hz _ (expt_pos hmo)
  rw [e3, e2]
  have z := mul_zero_fp hfin (y := fin 0) rfl (Or.inr rfl)
  split_ifs with hm
  · exact cmin_zero z hm
  · exact z

/-- without assertions, limit and file output a run with step size zero goes on for ever -/
theorem zero_diverges (hpow : ∀ x y, x ≠ negZero → lt x (fin 0) = false → lt (Libm.pow x y) (fin 0) = false) (f1 : t1.isFinite = true)
    (hb2 : sc.b2.length = sc.ns) (hms : o.maxSteps < 0) (hs : StreamOK oo) {τ : ℚ} (hτ : τ < t1.val) {s : ErkState FP n}
    (h : ZeroState τ s) : Diverges (erkBody true f t1 o oo sc mo) s := by
  refine diverges_of_inv (Inv := ZeroState τ) ?_ h
  intro a ha
  have hla : ltb a.t t1 = true := (lt_fin_iff ha.tF f1).mpr (by rw [ha.tv]; exact hτ)
  have hc := bodyCase true f t1 o oo sc mo a
  generalize hx : erkBody true f t1 o oo sc mo a = x at hc
  cases hc with
  | finished h => rw [hla] at h; cases h
  | maxSteps h h0 h1 => omega
  | throws h ha' hb' => exact absurd hb2 hb'
  | assertFail h ha' hnd => cases hnd
  | ub h hw hs' => rw [hs hw] at hs'; cases hs'
  | accepted => exact ⟨_, rfl, zero_next hpow f1 hτ ha hx⟩
  | rejected => exact ⟨_, rfl, zero_next hpow f1 hτ ha hx⟩

/-- the pass after which the step size is zero -/
theorem overflow_next (hlt : ltb s0.t t1 = true) (hms : o.maxSteps < 0) (had : o.adaptive = true) (hb2 : sc.b2.length = sc.ns)
    (hs : StreamOK oo) (he : (attemptAt f t1 o sc mo s0).errTot = inf false) (hr : (attemptAt f t1 o sc mo s0).reject = true)
    (hz : IsZero (attemptAt f t1 o sc mo s0).newDt) (hD : s0.t.IsDouble) (hF : s0.t.isFinite = true) :
    ∃ s, erkBody nd f t1 o oo sc mo s0 = .next s ∧ ZeroState s0.t.val s := by
  have hc := bodyCase nd f t1 o oo sc mo s0
  generalize hx : erkBody nd f t1 o oo sc mo s0 = x at hc
  cases hc with
  | finished h => rw [hlt] at h; cases h
  | maxSteps h h0 h1 => omega
  | throws h ha hb' => exact absurd hb2 hb'
  | assertFail h ha hnd a hA he' => rw [hA, he] at he'; cases he'
  | ub h hw hs' => rw [hs hw] at hs'; cases hs'
  | accepted h hm hb a hA hE hr' =>
    rw [hA, hr, had] at hr'
    rcases hr' with hr' | hr' <;> cases hr'
  | rejected h hm hb a hA hE had' hr' =>
    subst hA
    exact ⟨_, rfl, hD, hF, rfl, hz⟩

/-- such a run never returns -/
theorem overflow_hangs (hpow : ∀ x y, x ≠ negZero → lt x (fin 0) = false → lt (Libm.pow x y) (fin 0) = false)
    (f1 : t1.isFinite = true) (hlt : ltb s0.t t1 = true) (hms : o.maxSteps < 0) (had : o.adaptive = true) (hb2 : sc.b2.length = sc.ns)
    (hs : StreamOK oo) (he : (attemptAt f t1 o sc mo s0).errTot = inf false) (hr : (attemptAt f t1 o sc mo s0).reject = true)
    (hz : IsZero (attemptAt f t1 o sc mo s0).newDt) (hD : s0.t.IsDouble) (hF : s0.t.isFinite = true) (fuel : ℕ) :
    (∀ nd out, runLoop (erkBody nd f t1 o oo sc mo) fuel s0 ≠ some (.ret out)) ∧ runLoop (erkBody true f t1 o oo sc mo) fuel s0 = none := by
  have hv := (lt_fin_iff hF f1).mp hlt
  refine ⟨fun nd out => ?_, ?_⟩
  · obtain ⟨s, hb, hs⟩ := overflow_next (nd := nd) hlt hms had hb2 hs he hr hz hD hF
    cases fuel with
    | zero => intro hc; cases hc
    | succ k =>
      intro hc
      unfold runLoop at hc
      rw [hb] at hc
      have := (C109_absorbing hpow f1 hs.tD hs.tF (by rw [hs.tv]; exact hv) hs.dz k hc).2
      omega
  · obtain ⟨s, hb, hs'⟩ := overflow_next (nd := true) hlt hms had hb2 hs he hr hz hD hF
    cases fuel with
    | zero => rfl
    | succ k =>
      unfold runLoop
      rw [hb]
      exact zero_diverges hpow f1 hb2 hms hs hv hs' k

/-- rounding does not fall below a power of two -/
theorem rn_small {q : ℚ} {k : ℕ} (hk : rnQ (1 / 2 ^ k) = 1 / 2 ^ k) (h : 1 / 2 ^ k ≤ q) : 1 / 2 ^ k ≤ rnQ q := by
  have := rnQ_mono h
  rwa [hk] at this

/-- **C109 (moderate errors).**  An attempt in binary64 whose step is not below `2^-500` and whose error estimate is not
above `2^500` is followed by a positive step size; `pow` is assumed not to fall below the smaller one of its base and one
for exponents in `(0, 1]`.  Missing for the full statement `C109_claim`: larger errors (see `C109_overflow_zero`). -/
theorem C109_positive_partial (hge : ∀ x y, lt (fin 0) x = true → lt (fin 0) y = true → le y (fin 1) = true →
      le x (Libm.pow x y) = true ∨ le (fin 1) (Libm.pow x y) = true) (hmo : mo < 2 ^ 64)
    {d err : FP} (hd : d.IsDouble) (hf : d.isFinite = true) (hd0 : 1 / 2 ^ 500 ≤ d.val) (he : err.isFinite = true)
    (he0 : 0 < err.val) (he1 : err.val ≤ 2 ^ 500) : lt (fin 0) (newDt o mo d err) = true := by
  have l1 : (lit 1 : FP) = fin 1 := by show rnd false 1 = fin 1; decide +kernel
  have l4 : (lit 4 : FP) = fin 4 := by show rnd false 4 = fin 4; decide +kernel
  have k500 : rnQ (1 / 2 ^ 500) = 1 / 2 ^ 500 := by decide +kernel
  have k501 : rnQ (1 / 2 ^ 501) = 1 / 2 ^ 501 := by decide +kernel
  have k1001 : rnQ (1 / 2 ^ 1001) = 1 / 2 ^ 1001 := by decide +kernel
  have p500 : (0 : ℚ) < 1 / 2 ^ 500 := by positivity
  -- the exponent
  have hE1 : le (lit 1 / (lit 1 + lit mo) : FP) (fin 1) = true := expt_le hmo
  -- the inverse of the error
  obtain ⟨q, rfl, hq⟩ : ∃ q, err = fin q ∧ 0 < q := by
    cases err with
    | nan => cases he
    | inf b => cases he
    | negZero => exact absurd he0 (by simp [val])
    | fin q => exact ⟨q, rfl, he0⟩
  have e2 : (lit 1 / fin q : FP) = rnd false (1 / q) := by
    rw [l1]
    show div (fin 1) (fin q) = _
    have g1 : decide (q < 0) = false := by simp; exact hq.le
    have g2 : decide ((1 : ℚ) < 0) = false := by decide +kernel
    simp [div, val, hq.ne', isNeg, g1, g2]
  have hinv : 1 / 2 ^ 500 ≤ rnQ (1 / q) := rn_small k500 (one_div_le_one_div_of_le hq he1)
  -- the scale
  set p : FP := spow (lit 1 / fin q) (lit 1 / (lit 1 + lit mo)) with hp
  have hscale : (cmin (lit 4) p).isFinite = true ∧ 1 / 2 ^ 500 ≤ (cmin (lit 4) p).val := by
    have hx : lt (fin 0) (lit 1 / fin q : FP) = true ∧ ∀ y, le (lit 1 / fin q : FP) y = true → ltb y (lit 4) = true →
        y.isFinite = true ∧ 1 / 2 ^ 500 ≤ y.val := by
      rw [e2]
      rcases rnd_spec false (1 / q) with ⟨a, b, -⟩ | ⟨a, -⟩
      · refine ⟨by rw [lt_fin_iff rfl a, b]; exact lt_of_lt_of_le p500 hinv, fun y h1 h2 => ?_⟩
        have hyf : y.isFinite = true := by
          cases y with
          | nan => cases hv : rnd false (1 / q) <;> rw [hv] at h1 <;> cases h1
          | inf c =>
            cases c with
            | false => rw [l4] at h2; cases h2
            | true => cases hv : rnd false (1 / q) <;> rw [hv] at h1 a <;> first | exact absurd a Bool.noConfusion | exact absurd h1 Bool.noConfusion
          | negZero => rfl
          | fin _ => rfl
        rw [le_fin_iff a hyf, b] at h1
        exact ⟨hyf, hinv.trans h1⟩
      · have : decide (1 / q < 0) = false := by simp; exact hq.le
        rw [this] at a
        rw [a]
        refine ⟨rfl, fun y h1 h2 => ?_⟩
        exfalso
        cases y with
        | nan => cases h1
        | inf c =>
          cases c with
          | false => rw [l4] at h2; exact absurd h2 Bool.noConfusion
          | true => exact absurd h1 Bool.noConfusion
        | negZero => cases h1
        | fin _ => cases h1
    have h4 : (lit 4 : FP).isFinite = true ∧ 1 / 2 ^ 500 ≤ (lit 4 : FP).val := by
      rw [l4]; exact ⟨rfl, by decide +kernel⟩
    unfold cmin
    split_ifs with h
    · rcases hge _ _ hx.1 (expt_pos hmo) hE1 with hc | hc
      · exact hx.2 p hc h
      · have hpf : p.isFinite = true := by
          have hc' : le (fin 1) p = true := hc
          cases hv : p with
          | nan => rw [hv] at hc'; cases hc'
          | inf c =>
            rw [hv] at hc' h
            cases c with
            | false => rw [l4] at h; cases h
            | true => cases hc'
          | negZero => rfl
          | fin _ => rfl
        have hc' : le (fin 1) p = true := hc
        rw [le_fin_iff rfl hpf] at hc'
        refine ⟨hpf, le_trans ?_ hc'⟩
        show (1 / 2 ^ 500 : ℚ) ≤ 1
        decide +kernel
    · exact h4
  -- the safety factor
  have h9 : (lit (9 / 10) : FP).isFinite = true ∧ 1 / 2 ≤ (lit (9 / 10) : FP).val ∧ (lit (9 / 10) : FP).val ≤ 1 := by
    show (rnd false (9 / 10)).isFinite = true ∧ 1 / 2 ≤ (rnd false (9 / 10)).val ∧ (rnd false (9 / 10)).val ≤ 1
    decide +kernel
  have h9' : 0 ≤ (lit (9 / 10) : FP).val := by linarith [h9.2.1]
  have h0 : 0 ≤ d.val := p500.le.trans hd0
  have hm1 : (lit (9 / 10) * d : FP).isFinite = true ∧ 1 / 2 ^ 501 ≤ (lit (9 / 10) * d : FP).val := by
    obtain ⟨hr, hb⟩ := rep_val hd hf
    have hlow : 1 / 2 ^ 501 ≤ (lit (9 / 10) : FP).val * d.val := by
      have h1 := mul_le_mul h9.2.1 hd0 p500.le h9'
      have h2 : (1 / 2 : ℚ) * (1 / 2 ^ 500) = 1 / 2 ^ 501 := by
        rw [one_div_mul_one_div, show (501 : ℕ) = 1 + 500 from rfl, pow_add, pow_one]
      rwa [h2] at h1
    rcases (mul_nonneg_fin h9.1 hf h9' h0).2 with ⟨p, e⟩ | p
    · exact ⟨p, by rw [e]; exact rn_small k501 hlow⟩
    · exfalso
      have h2 := rnQ_mono (show (lit (9 / 10) : FP).val * d.val ≤ d.val from mul_le_of_le_one_left h0 h9.2.2)
      rw [hr] at h2
      rw [abs_of_nonneg (rnQ_nonneg (mul_nonneg h9' h0))] at p
      rw [abs_of_nonneg h0] at hb
      linarith
  have hm0 : 0 ≤ (lit (9 / 10) * d : FP).val := le_trans (by positivity) hm1.2
  have hs0 : 0 ≤ (cmin (lit 4) p).val := p500.le.trans hscale.2
  have hfin : lt (fin 0) (lit (9 / 10) * d * cmin (lit 4) p) = true := by
    have hlow : 1 / 2 ^ 1001 ≤ (lit (9 / 10) * d : FP).val * (cmin (lit 4) p).val := by
      have h1 := mul_le_mul hm1.2 hscale.2 p500.le hm0
      have h2 : (1 / 2 ^ 501 : ℚ) * (1 / 2 ^ 500) = 1 / 2 ^ 1001 := by
        rw [show (1001 : ℕ) = 501 + 500 by norm_num, pow_add, one_div_mul_one_div]
      rwa [h2] at h1
    have hmul : ∃ b, lit (9 / 10) * d * cmin (lit 4) p = rnd b ((lit (9 / 10) * d : FP).val * (cmin (lit 4) p).val) := by
      have hx := hm1.1
      have hy := hscale.1
      generalize (lit (9 / 10) * d : FP) = x at hx
      generalize cmin (lit 4) p = y at hy
      cases x <;> cases y <;> simp [isFinite] at hx hy <;> exact ⟨_, rfl⟩
    obtain ⟨b, hb⟩ := hmul
    rw [hb]
    have hr := rn_small k1001 hlow
    have hpos : (0 : ℚ) < 1 / 2 ^ 1001 := by positivity
    rcases rnd_spec b ((lit (9 / 10) * d : FP).val * (cmin (lit 4) p).val) with ⟨a, e, -⟩ | ⟨a, -⟩
    · rw [lt_fin_iff rfl a, e]; exact lt_of_lt_of_le hpos hr
    · have : decide ((lit (9 / 10) * d : FP).val * (cmin (lit 4) p).val < 0) = false := by
        simp only [decide_eq_false_iff_not, not_lt]; exact mul_nonneg hm0 hs0
      rw [a, this]; rfl
  have hnd : newDt o mo d (fin q) = if ltb (lit 0) o.maxDt then cmin o.maxDt (lit (9 / 10) * d * cmin (lit 4) p)
      else lit (9 / 10) * d * cmin (lit 4) p := rfl
  rw [hnd]
  generalize lit (9 / 10) * d * cmin (lit 4) p = z at hfin
  split_ifs with hm
  · unfold cmin
    split_ifs
    · exact hfin
    · exact hm
  · exact hfin

end

/-! ### C109: the refutation -/

/-- **C109, the claim**: in binary64 an attempted step of positive finite size (not below `2^-500`), from finite values and with a right-hand
side that has finite values everywhere, is followed by a step size that is not zero. -/
def C109_claim [Libm] : Prop := ∀ (m : ℤ) (_ : m ∈ erkImplemented) (f : FP → Vec FP 1 → Vec FP 1) (mo : ℕ) (s : ErkState FP 1) (d : FP),
  minOrder (erkCoeffs m : SolverCoeffs FP) = some mo → (∀ t y k, (f t y k).isFinite = true) → (∀ k, (s.y k).isFinite = true) →
  d.IsDouble → d.isFinite = true → 1 / 2 ^ 500 ≤ d.val → ¬ IsZero (attempt f ErkOpts.dflt (erkCoeffs m) mo s d s.sol).newDt

/-- a force that is switched on at `t = 1` -/
def switchOn (t : FP) (_ : Vec FP 1) : Vec FP 1 := fun _ => if lt t (fin 1) then fin 0 else fin (2 ^ 700)

/-- the first state of the run -/
def switchInit [Libm] : ErkState FP 1 := erkInit switchOn (fin 0) (fun _ => fin 0) (fin 1) (erkCoeffs 120)

theorem switch_powOne : letI := powOne
    (attemptAt switchOn (fin 2) ErkOpts.dflt (erkCoeffs 120) 2 switchInit).err = inf false ∧
      (attemptAt switchOn (fin 2) ErkOpts.dflt (erkCoeffs 120) 2 switchInit).errTot = inf false := by
  decide +kernel

section
variable [L : Libm]

/-- neither the error nor its square depends on `pow` -/
theorem switch_err : (attemptAt switchOn (fin 2) ErkOpts.dflt (erkCoeffs 120) 2 switchInit).err = inf false ∧
    (attemptAt switchOn (fin 2) ErkOpts.dflt (erkCoeffs 120) 2 switchInit).errTot = inf false := by
  obtain ⟨h1, h2⟩ := switch_powOne
  constructor
  · rw [← h1]; rfl
  · rw [← h2]; rfl

theorem switch_clip : clipDt (fin 0) (fin 2) (fin 1) = (fin 1 : FP) := by
  show (if lt (fin 2) (fin 0 + fin 1) then fin 2 - fin 0 else fin 1) = fin 1
  decide +kernel

theorem switch_lt : ltb switchInit.t (fin 2 : FP) = true := by
  show lt (fin 0) (fin 2) = true
  decide +kernel

theorem switch_t : switchInit.t.IsDouble ∧ switchInit.t.isFinite = true := by
  show (fin 0 : FP).IsDouble ∧ (fin 0 : FP).isFinite = true
  decide +kernel

theorem switch_zero (hz : ∀ y, lt (fin 0) y = true → Libm.pow (fin 0) y = fin 0) :
    (attemptAt switchOn (fin 2) ErkOpts.dflt (erkCoeffs 120) 2 switchInit).reject = true ∧
      IsZero (attemptAt switchOn (fin 2) ErkOpts.dflt (erkCoeffs 120) 2 switchInit).newDt := by
  have h := switch_err.1
  have e : clipDt switchInit.t (fin 2) switchInit.dt = (fin 1 : FP) := switch_clip
  unfold attemptAt at h ⊢
  rw [e] at h ⊢
  exact C109_overflow_zero hz (by norm_num) rfl (by decide +kernel) rfl (by norm_num [val]) _ h

/-- **C109 is false** whatever `pow` computes, as long as `pow(0, y)` is zero for positive `y`. -/
theorem C109_refuted (hz : ∀ y, lt (fin 0) y = true → Libm.pow (fin 0) y = fin 0) : ¬ C109_claim := by
  intro h
  have e : clipDt switchInit.t (fin 2) switchInit.dt = (fin 1 : FP) := switch_clip
  have h2 := (switch_zero hz).2
  unfold attemptAt at h2
  rw [e] at h2
  refine h 120 (by decide) switchOn 2 { switchInit with sol := switchInit.sol.bump } (fin 1) rfl ?_ (fun _ => rfl) (by decide +kernel) rfl
    (by decide +kernel) h2
  intro t y k
  unfold switchOn
  split_ifs <;> rfl

theorem switch_eff : effOpts ErkOpts.dflt (erkCoeffs 120 : SolverCoeffs FP) = ErkOpts.dflt := by
  unfold effOpts
  have : ((erkCoeffs 120 : SolverCoeffs FP).b2.length == 0) = false := rfl
  rw [this, Bool.and_false, if_neg (by simp)]

theorem switch_loop (nd : Bool) (fuel : ℕ) :
    erkOdeint nd switchOn (fin 0) (fin 2) (fun _ => fin 0) ErkOpts.dflt OutOpts.dflt 120 (fin 1) fuel =
      runLoop (erkBody nd switchOn (fin 2) ErkOpts.dflt OutOpts.dflt (erkCoeffs 120) 2) fuel switchInit := by
  have h := odeint_loop (nd := nd) (f := switchOn) (t0 := fin 0) (t1 := fin 2) (y0 := fun _ => fin 0) (o := ErkOpts.dflt)
    (oo := OutOpts.dflt) (dt := fin 1) (m := 120) (mo := 2) (by decide) rfl
    (by rw [switch_clip]; show lt (fin 0) (fin 1) = true; decide +kernel) fuel
  rw [switch_clip, switch_eff] at h
  exact h

/-- **C109, a run that never ends.**  `y' = 0` up to `t = 1` and `2^700` afterwards, on `[0, 2]` from zero, with the default options, the initial
step one and BOGACKI_SHAMPINE_32: the solution stays below `2^700`, but the square of the error of the first attempt
overflows, the step size becomes zero, and `odeint` never returns - with and without assertions, whatever `pow`
computes otherwise. -/
theorem C109_hangs (hz : ∀ y, lt (fin 0) y = true → Libm.pow (fin 0) y = fin 0)
    (hpow : ∀ x y, x ≠ negZero → lt x (fin 0) = false → lt (Libm.pow x y) (fin 0) = false) (fuel : ℕ) :
    (∀ nd out, erkOdeint nd switchOn (fin 0) (fin 2) (fun _ => fin 0) ErkOpts.dflt OutOpts.dflt 120 (fin 1) fuel ≠ some (.ret out)) ∧
      erkOdeint true switchOn (fin 0) (fin 2) (fun _ => fin 0) ErkOpts.dflt OutOpts.dflt 120 (fin 1) fuel = none := by
  have e : ∀ nd, erkOdeint nd switchOn (fin 0) (fin 2) (fun _ => fin 0) ErkOpts.dflt OutOpts.dflt 120 (fin 1) fuel =
      runLoop (erkBody nd switchOn (fin 2) ErkOpts.dflt OutOpts.dflt (erkCoeffs 120) 2) fuel switchInit := fun nd => switch_loop nd fuel
  obtain ⟨h1, h2⟩ := switch_zero hz
  have h3 := switch_err.2
  obtain ⟨g1, g2⟩ := overflow_hangs (f := switchOn) (t1 := fin 2) (o := ErkOpts.dflt) (oo := OutOpts.dflt) (sc := erkCoeffs 120)
    (mo := 2) (s0 := switchInit) hpow rfl switch_lt
    (show (-1 : ℤ) < 0 by norm_num) rfl
    (by simp [erkCoeffs, bogackiShampine32, SolverCoeffs.ns]) (by intro h; cases h) h3 h1 h2 switch_t.1
    switch_t.2 fuel
  exact ⟨fun nd out => by rw [e]; exact g1 nd out, by rw [e]; exact g2⟩

end

/-! ### examples -/

/-- a `pow` with the assumed properties -/
abbrev powId : Libm where
  pow x _ := x

section
local instance nonFiniteLibm : Libm := powId

theorem powId_nonneg : ∀ x y, x ≠ negZero → lt x (fin 0) = false → lt (Libm.pow x y) (fin 0) = false := fun _ _ _ h => h

theorem powId_ge : ∀ x y, lt (fin 0) x = true → lt (fin 0) y = true → le y (fin 1) = true →
    le x (Libm.pow x y) = true ∨ le (fin 1) (Libm.pow x y) = true := by
  intro x y h _ _
  refine Or.inl (le_refl' ?_)
  rintro rfl
  cases h

/-- `C108_sticky`: the right-hand side is not a number from `t = 1` on; of the five samples the last two are NaN -/
example : ∃ out : ErkOutput FP 1, valsOf (erkGuts false (fun t _ _ => if lt t (fin 1) then fin 1 else nan) (fin 0) (fin 2) (fun _ : Fin 1 => fin 1)
      { fpAdapt with adaptive := false } (fin (1 / 2)) (erkCoeffs 100) OutOpts.dflt 5) =
        some (0, [[fin 1], [fin (3 / 2)], [fin 2], [nan], [nan]]) ∧
      erkGuts false (fun t _ _ => if lt t (fin 1) then fin 1 else nan) (fin 0) (fin 2) (fun _ : Fin 1 => fin 1)
        { fpAdapt with adaptive := false } (fin (1 / 2)) (erkCoeffs 100) OutOpts.dflt 5 = some (.ret out) ∧
      out.yVals.Pairwise fun y z => y 0 = nan → z 0 = nan := by
  have h : valsOf (erkGuts false (fun t _ _ => if lt t (fin 1) then fin 1 else nan) (fin 0) (fin 2) (fun _ : Fin 1 => fin 1)
      { fpAdapt with adaptive := false } (fin (1 / 2)) (erkCoeffs 100) OutOpts.dflt 5) =
        some (0, [[fin 1], [fin (3 / 2)], [fin 2], [nan], [nan]]) := by decide +kernel
  obtain ⟨out, h1, -, -⟩ := ret_of_vals h
  exact ⟨out, h, h1, C108_sticky h1 0⟩

/-- `C108_nan_succeeds`: an initial value that is not a number -/
example : ∃ fuel out y, erkGuts true (fun _ y => y) (fin 0) (fin 1) (fun _ : Fin 1 => nan) fpAdapt (fin (1 / 1024)) (erkCoeffs 120) OutOpts.dflt
    fuel = some (.ret out) ∧ out.status = 0 ∧ out.yVals.getLast? = some y ∧ y 0 = nan :=
  C108_nan_succeeds (mo := 2) (fun _ _ => rfl) powId_nonneg rfl (by simp [erkCoeffs, bogackiShampine32, SolverCoeffs.ns]) (by intro h; cases h) rfl
    (by decide) (by decide +kernel) (by decide +kernel) (by decide +kernel) (by decide +kernel) rfl rfl (by decide +kernel) (by decide +kernel)
    (by decide +kernel) .refl rfl (by decide +kernel)

/-- `C108_first_partial`: the run of `C108_overflow` -/
example : ∃ out : ErkOutput FP 1, erkGuts false (fun _ _ _ => fin (2 ^ 1023)) (fin 0) (fin 1) (fun _ : Fin 1 => fin (2 ^ 1023)) fpAdapt (fin 1)
    (erkCoeffs 120) OutOpts.dflt 2 = some (.ret out) ∧ out.yVals.length = 2 ∧
      out.yVals.IsChain fun y z => (∀ i, (y i).isFinite = true) → ∀ i, z i ≠ nan := by
  obtain ⟨out, h1, -, h3⟩ := ret_of_vals (show valsOf (erkGuts false (fun _ _ _ => fin (2 ^ 1023)) (fin 0) (fin 1) (fun _ : Fin 1 => fin (2 ^ 1023))
    fpAdapt (fin 1) (erkCoeffs 120) OutOpts.dflt 2) = some (0, [[fin (2 ^ 1023)], [inf false]]) by decide +kernel)
  refine ⟨out, h1, ?_, C108_first_partial powId_nonneg rfl (by decide +kernel) (by decide +kernel) rfl rfl (by decide +kernel) (by decide +kernel) h1⟩
  have := congrArg List.length h3
  simpa using this

/-- `C109_positive_partial` -/
example : lt (fin 0) (newDt fpAdapt 2 (fin 1) (fin (2 ^ 500))) = true :=
  C109_positive_partial powId_ge (by norm_num) (by decide +kernel) rfl (by decide +kernel) rfl (by decide +kernel) (by decide +kernel)

/-- `C109_refuted`, `C109_hangs` -/
example (fuel : ℕ) : ¬ C109_claim ∧ erkOdeint true switchOn (fin 0) (fin 2) (fun _ => fin 0) ErkOpts.dflt OutOpts.dflt 120 (fin 1) fuel = none :=
  ⟨C109_refuted fun _ _ => rfl, (C109_hangs (fun _ _ => rfl) powId_nonneg fuel).2⟩

/-- `C109_absorbing` with a limit on the number of steps -/
example (out : ErkOutput FP 1) (fuel : ℕ) (h : runLoop (erkBody false (fun _ y => y) (fin 1) { fpAdapt with maxSteps := 7 } OutOpts.dflt
    (erkCoeffs 120) 2) fuel (erkInit (fun _ y => y) (fin 0) (fun _ : Fin 1 => fin 1) (fin 0) (erkCoeffs 120)) = some (.ret out)) : out.status = 128 :=
  (C109_absorbing powId_nonneg rfl (by show (fin 0 : FP).IsDouble; decide +kernel) rfl (by show (0 : ℚ) < 1; norm_num) ⟨rfl, rfl⟩ fuel h).1

end
end Verif
