import Verif.IrkConverge
import Verif.Prop.IrkOrder
import Verif.Prop.IrkStiff
import Verif.Prop.ErkConverge

/-!
# Property C77: the implicit integrators converge with their declared order, up to the Newton tolerance
-/

namespace Verif
open Spec Set TestEq

section chain
variable {n : ℕ} {u : ℝ → Vec ℝ n} {t0 t1 : ℝ}

/-- error along a chain of samples -/
theorem acc_error {Λ C η ζ : ℝ} (hΛ : 0 ≤ Λ) (hC : 0 ≤ C) (hη : 0 ≤ η) (hζ : 0 ≤ ζ) {acc : List (SampleI ℝ n)}
    (hhead : acc.head? = some (firstI t0 (u t0))) (hrange : ∀ a ∈ acc, t0 ≤ a.t ∧ a.t ≤ t1)
    (hch : acc.IsChain fun a b => a.t ≤ b.t ∧ (‖a.y - u a.t‖ ≤ 1 →
      ‖b.y - u b.t‖ ≤ (1 + Λ * (b.t - a.t)) * ‖a.y - u a.t‖ + C * (b.t - a.t) * η + ζ))
    (hsmall : Real.exp (Λ * (t1 - t0)) * ((t1 - t0) * (C * η) + (acc.length - 1 : ℕ) * ζ) ≤ 1) :
    ∀ b ∈ acc, ‖b.y - u b.t‖ ≤ Real.exp (Λ * (t1 - t0)) * ((t1 - t0) * (C * η) + (acc.length - 1 : ℕ) * ζ) := by
  intro b hb
  obtain ⟨i, hi, rfl⟩ := List.mem_iff_getElem.mp hb
  have hts : ∀ (i : ℕ) (hi : i < acc.length), (acc.map (·.t))[i]? = some acc[i].t := fun i hi => by
    rw [List.getElem?_map, List.getElem?_eq_getElem hi]; rfl
  have hes : ∀ (i : ℕ) (hi : i < acc.length), (acc.map fun a => ‖a.y - u a.t‖)[i]? = some ‖acc[i].y - u acc[i].t‖ := fun i hi => by
    rw [List.getElem?_map, List.getElem?_eq_getElem hi]; rfl
  have hget : ∀ (i : ℕ) (t e : ℝ), (acc.map (·.t))[i]? = some t → (acc.map fun a => ‖a.y - u a.t‖)[i]? = some e →
      ∃ hi : i < acc.length, t = acc[i].t ∧ e = ‖acc[i].y - u acc[i].t‖ := by
    intro i t e h1 h2
    have hi : i < acc.length := by simpa using (List.getElem?_eq_some_iff.mp h1).1
    rw [hts i hi] at h1
    rw [hes i hi] at h2
    exact ⟨hi, (Option.some.inj h1).symm, (Option.some.inj h2).symm⟩
  have key := chain_error_count (ts := acc.map (·.t)) (es := acc.map fun a => ‖a.y - u a.t‖) (N := acc.length - 1) hΛ hC hη hζ
    (by simp) (t0 := t0) (t1 := t1)
    (fun t ht => by obtain ⟨a, ha, rfl⟩ := List.mem_map.mp ht; exact hrange a ha)
    (by rw [List.head?_map, hhead]; rfl)
    (fun e he => by
      rw [List.head?_map, hhead] at he
      simp only [firstI, Option.map_some, sub_self, norm_zero, Option.some.injEq] at he
      exact he.symm.le) hsmall
    (fun i t t' e e' ht ht' he he' hone => by
      obtain ⟨hi, rfl, rfl⟩ := hget i t e ht he
      obtain ⟨hi', rfl, rfl⟩ := hget (i + 1) t' e' ht' he'
      have h1 := List.isChain_iff_getElem.mp hch i hi'
      exact ⟨h1.1, h1.2 hone⟩)
    i _ _ (by omega) (hts i hi) (hes i hi)
  obtain ⟨r1, r2⟩ := hrange _ hb
  refine key.trans ?_
  have hCη : 0 ≤ C * η := mul_nonneg hC hη
  have hN : (i : ℝ) * ζ ≤ (acc.length - 1 : ℕ) * ζ := mul_le_mul_of_nonneg_right (by exact_mod_cast (by omega : i ≤ acc.length - 1)) hζ
  have h0 : 0 ≤ (i : ℝ) * ζ := by positivity
  apply mul_le_mul (Real.exp_le_exp.mpr (mul_le_mul_of_nonneg_left (by linarith) hΛ)) _ (by
    have := mul_nonneg (sub_nonneg.mpr r1) hCη
    linarith) (Real.exp_pos _).le
  have := mul_le_mul_of_nonneg_right (sub_le_sub_right r2 t0) hCη
  linarith

end chain

section
variable {n : ℕ} {fn : OdeFun ℝ n} {t0 t1 : ℝ} {u : ℝ → Vec ℝ n} {sc : SolverCoeffs ℝ}

/-- the accepted samples of a run in exact arithmetic, with their number -/
theorem irk_accs_count {nd : Bool} {la : LinAlg ℝ} {y0 : Vec ℝ n} {o : IrkOpts ℝ} {dt : ℝ} {oo : OutOpts} {fuel : ℕ}
    {out : IrkOutput ℝ (sc.ns * n) n} {Rel : SampleI ℝ n → SampleI ℝ n → Prop} {J : IrkState ℝ (sc.ns * n) n → Prop}
    (h : irkGuts nd la fn t0 t1 y0 o dt sc oo fuel = some (.ret out)) (hpos : nd = false ∨ (0 < dt ∧ t0 < t1))
    (hJ0 : ∀ mx, J (irkInit (sc.ns * n) t0 y0 (clipDt t0 t1 dt) mx))
    (hJ : ∀ no mo Ai s s', TimeInvI t0 t1 s → J s → la.inv sc.mat = some Ai →
      irkBody nd la fn t1 o no oo sc mo (dWeights Ai fun i => sc.bw i) (dWeights Ai fun i => sc.bw2 i) s = .next s' → J s')
    (hacc : ∀ no mo Ai s r a l, o.newtonOpts = some no → la.inv sc.mat = some Ai → TimeInvI t0 t1 s → J s → s.t < t1 →
      solveAt nd la fn t1 no sc s = .ret r → r.status = 0 →
      attemptI la fn o sc mo (dWeights Ai fun i => sc.bw i) (dWeights Ai fun i => sc.bw2 i) s (clipDt s.t t1 s.dt)
        r.success = some a → l.t = s.t → l.y = s.y → Rel l (newSampleI s a)) :
    ∃ acc, acc.length = out.count.newtonSuccess - out.count.rejectErr + 1 ∧ RunView oo acc out ∧ acc.IsChain Rel ∧
      acc.head? = some (firstI t0 y0) := by
  obtain ⟨hc, h01⟩ := validI_of_ret h hpos
  obtain ⟨no, mo, Ai, s, acc, h1, h2, h3, -, hb, ⟨hT, hcn, hj⟩, hinv, hv, he⟩ :=
    irk_accs (Rel := Rel) (J := fun s => TimeInvI t0 t1 s ∧ CountInvI s ∧ J s) h
      (fun no hno _ => ⟨timeInvI_init h01.le hc _, countInvI_init _ _ _ _, hJ0 _⟩)
      (fun no mo Ai s s' h1 h2 h3 hs hb => ⟨timeInvI_next hs.1 hb, countInvI_next hs.2.1 hb, hJ no mo Ai s s' hs.1 hs.2.2 h3 hb⟩)
      (fun no mo Ai s r a l h1 h2 h3 hs hlt _ hr hst _ ha _ _ e1 e2 =>
        hacc no mo Ai s r a l h1 h3 hs.1 hs.2.2 (by simpa using hlt) hr hst ha e1 e2)
  refine ⟨acc, ?_, hv, hinv.chain, hinv.head⟩
  have hcase := bodyCaseI nd la fn t1 o no oo sc mo (dWeights Ai fun i => sc.bw i) (dWeights Ai fun i => sc.bw2 i) s
  rw [hb] at hcase
  have e := hcn.ok
  have e2 := hinv.len
  cases hcase with
  | finished hf => simp only; omega
  | limit hl hm => simp only [IrkOutput.bump]; omega
  | general hl hm r hr hs had =>
    obtain ⟨-, L, K, -, hcn'⟩ := solve_count hr
    simp only [hcn', IrkOutput.bump]; omega
  | stop r hr => exact absurd rfl (hr out)

/-- a limited step size stays limited -/
theorem dt_le_next {nd : Bool} {la : LinAlg ℝ} {o : IrkOpts ℝ} {no : NewtonOpts ℝ} {oo : OutOpts} {mo : ℕ} {d d2 : Vec ℝ sc.ns}
    {s s' : IrkState ℝ (sc.ns * n) n} {h : ℝ} (hmx : 0 < o.maxDt) (hle : o.maxDt ≤ h) (hT : TimeInvI t0 t1 s) (hJ : s.dt ≤ h)
    (hb : irkBody nd la fn t1 o no oo sc mo d d2 s = .next s') : s'.dt ≤ h := by
  have hc := bodyCaseI nd la fn t1 o no oo sc mo d d2 s
  rw [hb] at hc
  cases hc with
  | newton hl hm r hr hs had =>
    have hl' : s.t < t1 := by simpa using hl
    obtain ⟨c1, -, c3⟩ := clip_factsI hT hl'
    simp only [newtonReject, lit_real]
    have : ((7 / 10 : ℚ) : ℝ) = 7 / 10 := by norm_num
    rw [this]; linarith
  | rejected hl hm r hr hs had a ha hE hj => exact ((attemptI_facts hT (by simpa using hl) hr hs ha).2.2.2.1 hmx).trans hle
  | accepted hl hm r hr hs had a ha hE hj hi hw =>
    exact ((attemptI_facts hT (by simpa using hl) hr hs ha).2.2.2.1 hmx).trans hle

/-- What one step may add to the error on account of the stage equations being solved approximately: nothing when the right-hand side
is affine, otherwise the residual tolerance plus the step times the increment tolerance. -/
def NewtonDefect (fn : OdeFun ℝ n) (no : NewtonOpts ℝ) (h δ : ℝ) : Prop :=
  (IsAffine fn ∧ δ = 0) ∨ δ = |no.tol| + h * |no.dxDelta|

/-- the accepted samples of a run whose accepted steps are at most `h` -/
theorem irk_converges {p : ℕ} (hp : 1 ≤ p) (hf : ContDiff ℝ p fun q : ℝ × Vec ℝ n => fn.fn q.1 q.2)
    (hjac : Continuous fun q : ℝ × Vec ℝ n => fn.jac q.1 q.2) (h01 : t0 ≤ t1)
    (hu : ∀ t ∈ Icc t0 t1, HasDerivWithinAt u (fn.fn t (u t)) (Icc t0 t1) t)
    (ho : HasOrder (fun i j : Fin sc.ns => sc.a i j) (fun i => sc.bw i) p)
    (hc : ∀ i : Fin sc.ns, ∑ j : Fin sc.ns, sc.a i j = sc.cn i) :
    ∃ C h0 : ℝ, 0 ≤ C ∧ 0 < h0 ∧ ∀ (nd : Bool) (la : LinAlg ℝ) (o : IrkOpts ℝ) (no : NewtonOpts ℝ) (oo : OutOpts) (dt : ℝ) (fuel : ℕ)
      (out : IrkOutput ℝ (sc.ns * n) n) (h δ : ℝ), la.Exact → la.Sound →
      irkGuts nd la fn t0 t1 (u t0) o dt sc oo fuel = some (.ret out) → (nd = false ∨ (0 < dt ∧ t0 < t1)) →
      o.newtonOpts = some no → 0 ≤ h → h ≤ h0 → NewtonDefect fn no h δ →
      ∃ acc : List (SampleI ℝ n), acc.length = out.count.newtonSuccess - out.count.rejectErr + 1 ∧ RunView oo acc out ∧
        (0 < o.maxDt → o.maxDt ≤ h → dt ≤ h → acc.IsChain fun a b => b.t - a.t ≤ h) ∧
        (acc.IsChain (fun a b => b.t - a.t ≤ h) → C * (h ^ p + (acc.length - 1 : ℕ) * δ) ≤ 1 →
          ∀ b ∈ acc, ‖b.y - u b.t‖ ≤ C * (h ^ p + (acc.length - 1 : ℕ) * δ)) := by
  obtain ⟨Λ, C, G, κ, h0, hΛ, hC, hG, hκ, hh0, hstep⟩ := irk_step_error hp hf hjac hu ho hc
  have hT : 0 ≤ t1 - t0 := by linarith
  set B := Real.exp (Λ * (t1 - t0)) * ((t1 - t0) * C + G * max 1 κ) with hB
  have hκ1 : 0 ≤ max 1 κ := by positivity
  have hB0 : 0 ≤ B := by positivity
  refine ⟨B, h0, hB0, hh0, ?_⟩
  intro nd la o no oo dt fuel out h δ hla hs hrun hpos hno hh hle hdef
  have hδ : 0 ≤ δ := by
    rcases hdef with ⟨-, rfl⟩ | rfl
    · exact le_rfl
    · positivity
  -- the residual a step of length at most `h` leaves
  have hres : ∀ {t d : ℝ} {y : Vec ℝ n} {maxit : ℤ} {count : IrkCounters} {log : CallLog ℝ n} {r : StageResult ℝ (sc.ns * n) n},
      newtonSolveStages nd la fn sc t d y maxit no.refreshJac no.dxDelta no.tol count log = .ret r → r.status = 0 → 0 ≤ d → d ≤ h →
      (∀ q, |constructR fn.fn sc t d y r.Y q| ≤ κ * (|no.tol| + d * |no.dxDelta|)) →
      ∀ q, |constructR fn.fn sc t d y r.Y q| ≤ max 1 κ * δ := by
    intro t d y maxit count log r hr hst hd0 hd hb q
    rcases hdef with ⟨haff, rfl⟩ | rfl
    · obtain ⟨⟨i, k⟩, rfl⟩ := finProdFinEquiv.surjective q
      rw [constructR_eq, stage_affine hla hs haff hr hst i]
      simp
    · refine (hb q).trans (mul_le_mul (le_max_right _ _) ?_ (by positivity) hκ1)
      have := mul_le_mul_of_nonneg_right hd (abs_nonneg no.dxDelta)
      linarith
  obtain ⟨acc, hlen, hv, hch, hhead⟩ := irk_accs_count (sc := sc) (fn := fn)
    (J := fun s => 0 < o.maxDt → o.maxDt ≤ h → dt ≤ h → s.dt ≤ h)
    (Rel := fun a b => (a.t < b.t ∧ t0 ≤ b.t ∧ b.t ≤ t1) ∧ (0 < o.maxDt → o.maxDt ≤ h → dt ≤ h → b.t - a.t ≤ h) ∧
      (b.t - a.t ≤ h → ‖a.y - u a.t‖ ≤ 1 → ‖b.y - u b.t‖ ≤
        (1 + Λ * (b.t - a.t)) * ‖a.y - u a.t‖ + C * (b.t - a.t) * h ^ p + G * (max 1 κ * δ)))
    hrun hpos
    (fun mx _ _ hd => by
      change clipDt t0 t1 dt ≤ _
      rw [clipDt_real]; exact (min_le_left _ _).trans hd)
    (fun no mo Ai s s' hT hJ _ hb h1 h2 h3 => dt_le_next h1 h2 hT (hJ h1 h2 h3) hb)
    (fun no' mo Ai s r a l hno' hA hT hJ hlt hr hst ha e1 e2 => by
      rw [hno] at hno'
      cases hno'
      obtain ⟨q1, q2, -⟩ := attemptI_spec ha
      obtain ⟨c1, c2, c3⟩ := clip_factsI hT hlt
      have hsub : (newSampleI s a).t - l.t = clipDt s.t t1 s.dt := by simp only [newSampleI, q1, e1]; ring
      have ht : (newSampleI s a).t = s.t + clipDt s.t t1 s.dt := by simp only [newSampleI, q1]
      have hy : (newSampleI s a).y = fun k => s.y k + combineI sc r.Y (dWeights Ai fun i => sc.bw i) k := by
        simp only [newSampleI, q2]; rfl
      refine ⟨⟨by rw [ht, e1]; linarith, by rw [ht]; linarith [hT.lo], by rw [ht]; exact c2⟩, fun h1 h2 h3 => ?_, fun hd hone => ?_⟩
      · rw [hsub]; exact c3.trans (hJ h1 h2 h3)
      · rw [hsub] at hd ⊢
        rw [e1, e2] at hone ⊢
        rw [ht, hy]
        have hr' : newtonSolveStages nd la fn sc s.t (clipDt s.t t1 s.dt) s.y s.newtonMaxit no.refreshJac no.dxDelta
            no.tol s.sol.bump.count s.sol.log = .ret r := hr
        obtain ⟨k1, k2⟩ := hstep nd la Ai s.t (clipDt s.t t1 s.dt) s.y s.newtonMaxit no.refreshJac no.dxDelta no.tol _ _ r hla hs hA
          hr' hst hT.lo c1.le (hd.trans hle) c2 hone
        refine (k1 (max 1 κ * δ) (by positivity) (hres hr' hst c1.le hd k2)).trans ?_
        have := pow_step (p := p) hC c1.le hd
        linarith)
  refine ⟨acc, hlen, hv, fun h1 h2 h3 => hch.imp fun a b hab => hab.2.1 h1 h2 h3, fun hsteps hsmall => ?_⟩
  have hboth : acc.IsChain fun a b => a.t ≤ b.t ∧ (‖a.y - u a.t‖ ≤ 1 →
      ‖b.y - u b.t‖ ≤ (1 + Λ * (b.t - a.t)) * ‖a.y - u a.t‖ + C * (b.t - a.t) * h ^ p + G * (max 1 κ * δ)) := by
    rw [List.isChain_iff_getElem] at hch hsteps ⊢
    exact fun i hi => ⟨(hch i hi).1.1.le, (hch i hi).2.2 (hsteps i hi)⟩
  have hrange : ∀ a ∈ acc, t0 ≤ a.t ∧ a.t ≤ t1 := by
    intro a ha
    cases acc with
    | nil => cases ha
    | cons x l =>
      rcases List.mem_cons.mp ha with rfl | ha
      · simp only [List.head?_cons, Option.some.injEq] at hhead
        rw [hhead]
        exact ⟨le_rfl, h01⟩
      · obtain ⟨a', h'⟩ := chain_pred hch ha
        exact h'.1.2
  have hbound : Real.exp (Λ * (t1 - t0)) * ((t1 - t0) * (C * h ^ p) + (acc.length - 1 : ℕ) * (G * (max 1 κ * δ))) ≤
      B * (h ^ p + (acc.length - 1 : ℕ) * δ) := by
    rw [hB, mul_assoc]
    refine mul_le_mul_of_nonneg_left ?_ (Real.exp_pos _).le
    have a1 : 0 ≤ G * max 1 κ * h ^ p := by positivity
    have a2 : 0 ≤ (t1 - t0) * C * ((acc.length - 1 : ℕ) * δ) := by positivity
    nlinarith
  have hh := acc_error hΛ hC (pow_nonneg hh p) (by positivity : 0 ≤ G * (max 1 κ * δ)) hhead hrange hboth (hbound.trans hsmall)
  exact fun b hb => (hh b hb).trans hbound

/-- the steps of an output that records every sample -/
theorem chain_of_gaps {oo : OutOpts} {acc : List (SampleI ℝ n)} {out : IrkOutput ℝ (sc.ns * n) n} {h : ℝ} (hv : RunView oo acc out)
    (hst : oo.storeInVectors = true) (hint : oo.interval.toNat = 1)
    (hgap : ∀ (i : ℕ) (t t' : ℝ), out.tVals[i]? = some t → out.tVals[i + 1]? = some t' → t' - t ≤ h) :
    acc.IsChain (fun a b => b.t - a.t ≤ h) ∧ out.tVals = acc.map (·.t) ∧ out.yVals = acc.map (·.y) := by
  have e : storedI oo acc = acc := by rw [storedI, if_pos hst, hint, everyNth_one]
  have e1 := hv.cols.t
  have e2 := hv.cols.y
  rw [e] at e1 e2
  refine ⟨?_, e1, e2⟩
  rw [List.isChain_iff_getElem]
  intro i hi
  refine hgap i _ _ ?_ ?_ <;> rw [e1, List.getElem?_map, List.getElem?_eq_getElem (by omega)] <;> rfl

theorem implicit_order {m : ℤ} {p : ℕ} (hm : m ∈ ([210, 211, 230, 231, 232] : List ℤ))
    (hp : (irkCoeffs m : SolverCoeffs ℝ).order = some (p : ℤ)) :
    1 ≤ p ∧ HasOrder (fun i j : Fin (irkCoeffs m : SolverCoeffs ℝ).ns => (irkCoeffs m : SolverCoeffs ℝ).a i j)
        (fun i => (irkCoeffs m : SolverCoeffs ℝ).bw i) p ∧
      ∀ i : Fin (irkCoeffs m : SolverCoeffs ℝ).ns, ∑ j : Fin (irkCoeffs m : SolverCoeffs ℝ).ns, (irkCoeffs m : SolverCoeffs ℝ).a i j =
        (irkCoeffs m : SolverCoeffs ℝ).cn i := by
  have hm' : m ∈ ([200, 210, 211, 220, 230, 231, 232, 240] : List ℤ) := by
    have : ∀ m ∈ ([210, 211, 230, 231, 232] : List ℤ), m ∈ ([200, 210, 211, 220, 230, 231, 232, 240] : List ℤ) := by decide
    exact this m hm
  obtain ⟨q, h1, h2, h3⟩ := C49_order_conditions hm'
  rw [hp] at h2
  obtain rfl : p = q := Int.ofNat.inj (Option.some.inj h2)
  exact ⟨h1, h3, C49_row_sums hm'⟩

/-- `odeint` returns what `irk_guts` returns for options with the same Newton options and step limit -/
theorem irkOdeint_ret {nd : Bool} {la : LinAlg ℝ} {y0 : Vec ℝ n} {o : IrkOpts ℝ} {oo : OutOpts} {m : ℤ} {dt : ℝ} {fuel : ℕ}
    {out : IrkOutput ℝ ((irkCoeffs m : SolverCoeffs ℝ).ns * n) n} (h : irkOdeint nd la fn t0 t1 y0 o oo m dt fuel = some (.ret out)) :
    ∃ o' : IrkOpts ℝ, o'.newtonOpts = o.newtonOpts ∧ o'.maxDt = o.maxDt ∧
      irkGuts nd la fn t0 t1 y0 o' dt (irkCoeffs m) oo fuel = some (.ret out) := by
  unfold irkOdeint at h
  simp only at h
  by_cases hv : (!nd && !irkVerify (irkCoeffs m : SolverCoeffs ℝ)) = true
  · rw [if_pos hv] at h; cases h
  · rw [if_neg hv] at h
    refine ⟨_, ?_, ?_, h⟩ <;> split_ifs <;> rfl

/-- what holds of all accepted samples holds of the recorded ones -/
theorem recorded_of_all {P : ℝ → Vec ℝ n → Prop} {oo : OutOpts} {acc : List (SampleI ℝ n)} {out : IrkOutput ℝ (sc.ns * n) n}
    (hv : RunView oo acc out) (hall : ∀ b ∈ acc, P b.t b.y) (i : ℕ) (t : ℝ) (y : Vec ℝ n) (ht : out.tVals[i]? = some t)
    (hy : out.yVals[i]? = some y) : P t y := by
  rw [hv.cols.t, List.getElem?_map, Option.map_eq_some_iff] at ht
  rw [hv.cols.y, List.getElem?_map, Option.map_eq_some_iff] at hy
  obtain ⟨a, ha, rfl⟩ := ht
  obtain ⟨b, hb, rfl⟩ := hy
  rw [ha] at hb
  cases hb
  have hmem := List.mem_of_getElem? ha
  unfold storedI at hmem
  split_ifs at hmem
  · exact hall a ((everyNth_sublist _ _).subset hmem)
  · exact hall a ((List.take_sublist _ _).subset hmem)

/-- what holds of all accepted samples holds of the streamed ones -/
theorem streamed_of_all {P : ℝ → Vec ℝ n → Prop} {oo : OutOpts} {acc : List (SampleI ℝ n)} {out : IrkOutput ℝ (sc.ns * n) n}
    (hv : RunView oo acc out) (hall : ∀ b ∈ acc, P b.t b.y) : ∀ l ∈ out.file, P l.1 l.2 := by
  intro l hl
  rw [hv.file] at hl
  unfold writtenI at hl
  split_ifs at hl
  · obtain ⟨b, hb, rfl⟩ := List.mem_map.mp hl
    exact hall b ((everyNth_sublist _ _).subset ((List.tail_sublist _).subset hb))
  · cases hl

end

section
variable {n : ℕ} {fn : OdeFun ℝ n} {t0 t1 : ℝ} {u : ℝ → Vec ℝ n} {m : ℤ} {p : ℕ}

/-- **C77.**  Let `u` solve `u' = f(t,u)` on `[t0,t1]`, `f` being `p` times continuously differentiable, where `p` is the declared order
of the implicit method; the Jacobi matrix the caller supplies need only be continuous.  There are constants `C` and `h₀ > 0` such that
every run from `u(t0)` that records `N` steps, all of them at most `h ≤ h₀`, has all its samples within
`C (h^p + N (tol + h dx_delta))` of the solution, where `tol` and `dx_delta` are the tolerances of the Newton iteration, as long as this
bound is at most one. -/
theorem C77_convergence (hm : m ∈ ([210, 211, 230, 231, 232] : List ℤ)) (hp : (irkCoeffs m : SolverCoeffs ℝ).order = some (p : ℤ))
    (hf : ContDiff ℝ p fun q : ℝ × Vec ℝ n => fn.fn q.1 q.2) (hjac : Continuous fun q : ℝ × Vec ℝ n => fn.jac q.1 q.2) (h01 : t0 ≤ t1)
    (hu : ∀ t ∈ Icc t0 t1, HasDerivWithinAt u (fn.fn t (u t)) (Icc t0 t1) t) :
    ∃ C h0 : ℝ, 0 ≤ C ∧ 0 < h0 ∧ ∀ (nd : Bool) (la : LinAlg ℝ) (o : IrkOpts ℝ) (no : NewtonOpts ℝ) (oo : OutOpts) (dt : ℝ) (fuel : ℕ)
      (out : IrkOutput ℝ ((irkCoeffs m : SolverCoeffs ℝ).ns * n) n) (h : ℝ), la.Exact → la.Sound →
      irkOdeint nd la fn t0 t1 (u t0) o oo m dt fuel = some (.ret out) → (nd = false ∨ (0 < dt ∧ t0 < t1)) →
      o.newtonOpts = some no → oo.storeInVectors = true → oo.interval.toNat = 1 → 0 ≤ h → h ≤ h0 →
      (∀ (i : ℕ) (t t' : ℝ), out.tVals[i]? = some t → out.tVals[i + 1]? = some t' → t' - t ≤ h) →
      C * (h ^ p + (out.tVals.length - 1 : ℕ) * (|no.tol| + h * |no.dxDelta|)) ≤ 1 →
      ∀ (i : ℕ) (t : ℝ) (y : Vec ℝ n), out.tVals[i]? = some t → out.yVals[i]? = some y →
        ‖y - u t‖ ≤ C * (h ^ p + (out.tVals.length - 1 : ℕ) * (|no.tol| + h * |no.dxDelta|)) := by
  obtain ⟨hp1, ho, hc⟩ := implicit_order hm hp
  obtain ⟨C, h0, hC, hh0, key⟩ := irk_converges hp1 hf hjac h01 hu ho hc
  refine ⟨C, h0, hC, hh0, ?_⟩
  intro nd la o no oo dt fuel out h hla hs hrun hpos hno hst hint hh hle hgap hsmall i t y ht hy
  obtain ⟨o', e1, -, hg⟩ := irkOdeint_ret hrun
  obtain ⟨acc, -, hv, -, H⟩ := key nd la o' no oo dt fuel out h _ hla hs hg hpos (e1.trans hno) hh hle (Or.inr rfl)
  obtain ⟨g1, g2, g3⟩ := chain_of_gaps hv hst hint hgap
  have hl : out.tVals.length = acc.length := by rw [g2, List.length_map]
  rw [hl] at hsmall ⊢
  rw [g2, List.getElem?_map, Option.map_eq_some_iff] at ht
  rw [g3, List.getElem?_map, Option.map_eq_some_iff] at hy
  obtain ⟨a, ha, rfl⟩ := ht
  obtain ⟨b, hb, rfl⟩ := hy
  rw [ha] at hb
  cases hb
  exact H g1 hsmall a (List.mem_of_getElem? ha)

/-- **C77, step limit.**  With `max_dt ≤ h` and an initial step at most `h` the same holds whatever is recorded or streamed, `N` being the
number of accepted steps (successful stage solves minus rejections). -/
theorem C77_max_dt (hm : m ∈ ([210, 211, 230, 231, 232] : List ℤ)) (hp : (irkCoeffs m : SolverCoeffs ℝ).order = some (p : ℤ))
    (hf : ContDiff ℝ p fun q : ℝ × Vec ℝ n => fn.fn q.1 q.2) (hjac : Continuous fun q : ℝ × Vec ℝ n => fn.jac q.1 q.2) (h01 : t0 ≤ t1)
    (hu : ∀ t ∈ Icc t0 t1, HasDerivWithinAt u (fn.fn t (u t)) (Icc t0 t1) t) :
    ∃ C h0 : ℝ, 0 ≤ C ∧ 0 < h0 ∧ ∀ (nd : Bool) (la : LinAlg ℝ) (o : IrkOpts ℝ) (no : NewtonOpts ℝ) (oo : OutOpts) (dt : ℝ) (fuel : ℕ)
      (out : IrkOutput ℝ ((irkCoeffs m : SolverCoeffs ℝ).ns * n) n) (h : ℝ), la.Exact → la.Sound →
      irkOdeint nd la fn t0 t1 (u t0) o oo m dt fuel = some (.ret out) → (nd = false ∨ (0 < dt ∧ t0 < t1)) →
      o.newtonOpts = some no → h ≤ h0 → 0 < o.maxDt → o.maxDt ≤ h → dt ≤ h →
      C * (h ^ p + (out.count.newtonSuccess - out.count.rejectErr : ℕ) * (|no.tol| + h * |no.dxDelta|)) ≤ 1 →
      (∀ (i : ℕ) (t : ℝ) (y : Vec ℝ n), out.tVals[i]? = some t → out.yVals[i]? = some y →
        ‖y - u t‖ ≤ C * (h ^ p + (out.count.newtonSuccess - out.count.rejectErr : ℕ) * (|no.tol| + h * |no.dxDelta|))) ∧
      ∀ l ∈ out.file, ‖l.2 - u l.1‖ ≤ C * (h ^ p + (out.count.newtonSuccess - out.count.rejectErr : ℕ) * (|no.tol| + h * |no.dxDelta|)) := by
  obtain ⟨hp1, ho, hc⟩ := implicit_order hm hp
  obtain ⟨C, h0, hC, hh0, key⟩ := irk_converges hp1 hf hjac h01 hu ho hc
  refine ⟨C, h0, hC, hh0, ?_⟩
  intro nd la o no oo dt fuel out h hla hs hrun hpos hno hle hmx hmxle hdt hsmall
  obtain ⟨o', e1, e2, hg⟩ := irkOdeint_ret hrun
  obtain ⟨acc, hlen, hv, hch, H⟩ := key nd la o' no oo dt fuel out h _ hla hs hg hpos (e1.trans hno) (hmx.le.trans hmxle) hle (Or.inr rfl)
  have hN : acc.length - 1 = out.count.newtonSuccess - out.count.rejectErr := by omega
  rw [hN] at H
  have hall := H (hch (by rw [e2]; exact hmx) (by rw [e2]; exact hmxle) hdt) hsmall
  exact ⟨recorded_of_all (P := fun t y => ‖y - u t‖ ≤ _) hv hall, streamed_of_all (P := fun t y => ‖y - u t‖ ≤ _) hv hall⟩

/-- **C77, linear systems.**  For `y' = J y + g(t)` the Newton iteration leaves no defect, and there is no condition besides the step
size: every run with steps at most `h ≤ h₀` is within `C h^p` of the solution. -/
theorem C77_affine (hm : m ∈ ([210, 211, 230, 231, 232] : List ℤ)) (hp : (irkCoeffs m : SolverCoeffs ℝ).order = some (p : ℤ))
    {J : Matrix (Fin n) (Fin n) ℝ} {g : ℝ → Vec ℝ n} (hf : ∀ t y, fn.fn t y = J.mulVec y + g t)
    (hJ : ∀ t y i j, fn.jac t y i j = J i j) (hg : ContDiff ℝ p g) (h01 : t0 ≤ t1)
    (hu : ∀ t ∈ Icc t0 t1, HasDerivWithinAt u (J.mulVec (u t) + g t) (Icc t0 t1) t) :
    ∃ C h0 : ℝ, 0 ≤ C ∧ 0 < h0 ∧ ∀ (nd : Bool) (la : LinAlg ℝ) (o : IrkOpts ℝ) (no : NewtonOpts ℝ) (oo : OutOpts) (dt : ℝ) (fuel : ℕ)
      (out : IrkOutput ℝ ((irkCoeffs m : SolverCoeffs ℝ).ns * n) n) (h : ℝ), la.Exact → la.Sound →
      irkOdeint nd la fn t0 t1 (u t0) o oo m dt fuel = some (.ret out) → (nd = false ∨ (0 < dt ∧ t0 < t1)) →
      o.newtonOpts = some no → 0 ≤ h → h ≤ h0 →
      ((0 < o.maxDt ∧ o.maxDt ≤ h ∧ dt ≤ h) ∨ (oo.storeInVectors = true ∧ oo.interval.toNat = 1 ∧
        ∀ (i : ℕ) (t t' : ℝ), out.tVals[i]? = some t → out.tVals[i + 1]? = some t' → t' - t ≤ h)) →
      (∀ (i : ℕ) (t : ℝ) (y : Vec ℝ n), out.tVals[i]? = some t → out.yVals[i]? = some y → ‖y - u t‖ ≤ C * h ^ p) ∧
      ∀ l ∈ out.file, ‖l.2 - u l.1‖ ≤ C * h ^ p := by
  obtain ⟨hp1, ho, hc⟩ := implicit_order hm hp
  have haff : IsAffine fn := ⟨J, g, hf, hJ⟩
  have e1 : (fun q : ℝ × Vec ℝ n => fn.fn q.1 q.2) = fun q => J.mulVec q.2 + g q.1 := funext fun q => hf _ _
  have e2 : (fun q : ℝ × Vec ℝ n => fn.jac q.1 q.2) = fun _ => (fun i j => J i j) := by
    funext q i j; exact hJ _ _ _ _
  have hlin : ContDiff ℝ p fun q : ℝ × Vec ℝ n => J.mulVec q.2 :=
    (J.mulVecLin.toContinuousLinearMap.contDiff (n := p)).comp contDiff_snd
  obtain ⟨C, h0, hC, hh0, key⟩ := irk_converges (fn := fn) hp1 (by rw [e1]; exact hlin.add (hg.comp contDiff_fst))
    (by rw [e2]; exact continuous_const) h01 (fun t ht => by rw [hf]; exact hu t ht) ho hc
  refine ⟨C, min h0 (min 1 (1 / (C + 1))), hC, by positivity, ?_⟩
  intro nd la o no oo dt fuel out h hla hs hrun hpos hno hh hle hsteps
  obtain ⟨o', e1, e2, hg'⟩ := irkOdeint_ret hrun
  obtain ⟨acc, hlen, hv, hch, H⟩ := key nd la o' no oo dt fuel out h 0 hla hs hg' hpos (e1.trans hno) hh (hle.trans (min_le_left _ _))
    (Or.inl ⟨haff, rfl⟩)
  simp only [mul_zero, add_zero] at H
  have hall : ∀ b ∈ acc, ‖b.y - u b.t‖ ≤ C * h ^ p := by
    refine H ?_ (small_pow hp1 hC hh (hle.trans (min_le_right _ _)))
    rcases hsteps with ⟨k1, k2, k3⟩ | ⟨k1, k2, k3⟩
    · exact hch (by rw [e2]; exact k1) (by rw [e2]; exact k2) k3
    · exact (chain_of_gaps hv k1 k2 k3).1
  exact ⟨recorded_of_all (P := fun t y => ‖y - u t‖ ≤ _) hv hall, streamed_of_all (P := fun t y => ‖y - u t‖ ≤ _) hv hall⟩

/-- **C77, linear systems without unstable modes.**  The stiff methods complete such a system (C67), and with a step limit `max_dt ≤ h₀`
the value they return for `t1` is within `C max_dt^p` of the solution. -/
theorem C77_stiff_completes (hm : m ∈ ([210, 211, 230, 231, 232] : List ℤ)) (hp : (irkCoeffs m : SolverCoeffs ℝ).order = some (p : ℤ))
    {J : Matrix (Fin n) (Fin n) ℝ} {g : ℝ → Vec ℝ n} (hf : ∀ t y, fn.fn t y = J.mulVec y + g t)
    (hJ : ∀ t y i j, fn.jac t y i j = J i j) (hg : ContDiff ℝ p g) (hD : Dissipative J) (hn : 0 < n) (h01 : t0 < t1)
    (hu : ∀ t ∈ Icc t0 t1, HasDerivWithinAt u (J.mulVec (u t) + g t) (Icc t0 t1) t) :
    ∃ C h0 : ℝ, 0 ≤ C ∧ 0 < h0 ∧ ∀ (o : IrkOpts ℝ) (no : NewtonOpts ℝ) (oo : OutOpts) (dt : ℝ),
      o.adaptive = true → o.maxSteps < 0 → o.newtonOpts = some no → 2 ≤ no.maxit → no.tol ≠ 0 → no.refreshJac ≠ 0 →
      0 < o.absTol → 0 ≤ o.relTol → oo.storeInVectors = true → oo.interval.toNat = 1 →
      (oo.writeToFile = true → oo.streamSet = true) → 0 < o.maxDt → o.maxDt ≤ h0 → 0 < dt → dt ≤ o.maxDt →
      ∃ fuel out yEnd, irkOdeint false laReal fn t0 t1 (u t0) o oo m dt fuel = some (.ret out) ∧ out.status = 0 ∧
        out.tVals.getLast? = some t1 ∧ out.yVals.getLast? = some yEnd ∧ ‖yEnd - u t1‖ ≤ C * o.maxDt ^ p := by
  obtain ⟨C, h0, hC, hh0, key⟩ := C77_affine (t0 := t0) (t1 := t1) (u := u) hm hp hf hJ hg h01.le hu
  refine ⟨C, h0, hC, hh0, ?_⟩
  intro o no oo dt had hms hno hmax htol hr hat hrt hst hint hw hmx hle hdt hdtle
  have hgb : TimeBounded g := by
    intro R
    obtain ⟨M, hM⟩ := (isCompact_Icc (a := -R) (b := R)).exists_bound_of_continuousOn hg.continuous.continuousOn
    exact ⟨M, fun t ht k => by
      have := (norm_le_pi_norm (g t) k).trans (hM t (abs_le.mp ht))
      rwa [Real.norm_eq_abs] at this⟩
  obtain ⟨fuel, out, h1, h2, -, -, h5⟩ := C67_stiff_success (y0 := u t0) (oo := oo) hm hf hJ hgb hD hn h01 hdt had hms hno hmax htol hr
    hat hrt (by rw [hint]; decide) hw
  have hlast := h5 hst hint
  obtain ⟨hall, -⟩ := key false laReal o no oo dt fuel out o.maxDt laReal_exact laReal_sound h1 (Or.inl rfl) hno hmx.le hle
    (Or.inl ⟨hmx, le_rfl, hdtle⟩)
  have hlen : out.tVals.length = out.yVals.length := by
    obtain ⟨o', -, -, hg'⟩ := irkOdeint_ret h1
    obtain ⟨acc, -, hv, -, -⟩ := irk_accs_count (J := fun _ => True) (Rel := fun _ _ => True) hg' (Or.inl rfl)
      (fun _ => trivial) (fun _ _ _ _ _ _ _ _ _ => trivial) (fun _ _ _ _ _ _ _ _ _ _ _ _ _ _ _ _ _ => trivial)
    rw [hv.cols.t, hv.cols.y, List.length_map, List.length_map]
  have hne : out.yVals ≠ [] := by
    intro h
    rw [h, List.length_nil, List.length_eq_zero_iff] at hlen
    rw [hlen] at hlast
    cases hlast
  refine ⟨fuel, out, out.yVals.getLast hne, h1, h2, hlast, List.getLast?_eq_getLast_of_ne_nil hne, ?_⟩
  refine hall (out.tVals.length - 1) t1 _ ?_ ?_
  · rw [← List.getLast?_eq_getElem?]; exact hlast
  · rw [hlen, ← List.getLast?_eq_getElem?]; exact List.getLast?_eq_getLast_of_ne_nil hne

end
/-! ### the hypotheses are satisfiable -/

/-- the stiffly accurate Radau method of order five on `y' = y²`, `y(0) = 1`, up to `t = 9/10` -/
example : ∃ C h0 : ℝ, 0 ≤ C ∧ 0 < h0 ∧ ∀ (la : LinAlg ℝ) (o : IrkOpts ℝ) (dt : ℝ) (fuel : ℕ)
    (out : IrkOutput ℝ ((irkCoeffs 211 : SolverCoeffs ℝ).ns * 1) 1) (h : ℝ), la.Exact → la.Sound →
    irkOdeint false la ({ fn := fun _ y k => y k ^ 2, jac := fun _ y _ _ => 2 * y 0 } : OdeFun ℝ 1) 0 (9 / 10)
      ((fun (t : ℝ) (_ : Fin 1) => 1 / (1 - t)) 0) o OutOpts.dflt 211 dt fuel = some (.ret out) →
    o.newtonOpts = some NewtonOpts.dflt → h ≤ h0 → 0 < o.maxDt → o.maxDt ≤ h → dt ≤ h →
    C * (h ^ 5 + (out.count.newtonSuccess - out.count.rejectErr : ℕ) * (|(NewtonOpts.dflt : NewtonOpts ℝ).tol| +
      h * |(NewtonOpts.dflt : NewtonOpts ℝ).dxDelta|)) ≤ 1 →
    ∀ (i : ℕ) (t : ℝ) (y : Vec ℝ 1), out.tVals[i]? = some t → out.yVals[i]? = some y →
      ‖y - fun _ => 1 / (1 - t)‖ ≤ C * (h ^ 5 + (out.count.newtonSuccess - out.count.rejectErr : ℕ) *
        (|(NewtonOpts.dflt : NewtonOpts ℝ).tol| + h * |(NewtonOpts.dflt : NewtonOpts ℝ).dxDelta|)) := by
  obtain ⟨C, h0, hC, hh0, key⟩ := C77_max_dt (m := 211) (p := 5)
    (fn := ({ fn := fun _ y k => y k ^ 2, jac := fun _ y _ _ => 2 * y 0 } : OdeFun ℝ 1)) (u := fun t _ => 1 / (1 - t)) (t0 := 0)
    (t1 := 9 / 10) (by decide) (by simp [irkCoeffs, radauIIA53])
    (contDiff_pi.mpr fun i => ((contDiff_apply ℝ ℝ i).comp contDiff_snd).pow 2) (by fun_prop) (by norm_num) blowup_solution
  exact ⟨C, h0, hC, hh0, fun la o dt fuel out h a1 a2 a3 a4 a5 a6 a7 a8 a9 =>
    (key false la o _ OutOpts.dflt dt fuel out h a1 a2 a3 (Or.inl rfl) a4 a5 a6 a7 a8 a9).1⟩

/-- the harmonic oscillator of the examples, LOBATTO_IIIC_64: the run completes with an error of sixth order -/
example (w : ℝ) : ∃ C h0 : ℝ, 0 ≤ C ∧ 0 < h0 ∧ ∀ (o : IrkOpts ℝ) (no : NewtonOpts ℝ) (oo : OutOpts) (dt : ℝ),
    o.adaptive = true → o.maxSteps < 0 → o.newtonOpts = some no → 2 ≤ no.maxit → no.tol ≠ 0 → no.refreshJac ≠ 0 →
    0 < o.absTol → 0 ≤ o.relTol → oo.storeInVectors = true → oo.interval.toNat = 1 →
    (oo.writeToFile = true → oo.streamSet = true) → 0 < o.maxDt → o.maxDt ≤ h0 → 0 < dt → dt ≤ o.maxDt →
    ∃ fuel out yEnd, irkOdeint false laReal (harmonic w) 0 10 (harmonicSol w 0) o oo 231 dt fuel = some (.ret out) ∧ out.status = 0 ∧
      out.tVals.getLast? = some 10 ∧ out.yVals.getLast? = some yEnd ∧ ‖yEnd - harmonicSol w 10‖ ≤ C * o.maxDt ^ 6 :=
  C77_stiff_completes (m := 231) (p := 6) (J := !![0, w; -w, 0]) (g := fun _ => 0) (u := harmonicSol w) (by decide)
    (by simp [irkCoeffs, lobattoIIIC64])
    (fun t y => by
      funext i
      fin_cases i <;> simp [harmonic, dotProduct, Fin.sum_univ_two])
    (fun t y i j => by fin_cases i <;> fin_cases j <;> simp [harmonic]) contDiff_const (harmonic_dissipative w) (by norm_num)
    (by norm_num) fun t _ => by
      refine HasDerivAt.hasDerivWithinAt ?_
      rw [hasDerivAt_pi]
      intro i
      have hd := (hasDerivAt_id t).const_mul w
      simp only [id, mul_one] at hd
      fin_cases i
      · simpa [harmonicSol, dotProduct, Fin.sum_univ_two, mul_comm] using hd.sin
      · simpa [harmonicSol, dotProduct, Fin.sum_univ_two, mul_comm] using hd.cos

end Verif
