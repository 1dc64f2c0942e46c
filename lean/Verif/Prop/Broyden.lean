import Verif.Broyden

/-!
# Properties C33 (when Broyden's method stops) and C85 (local convergence of Broyden's method)
-/

set_option linter.unusedSectionVars false

namespace Verif

open Matrix

variable {n : ℕ} {fn : Vec ℝ n → Vec ℝ n} {x xr : Vec ℝ n} {o : NewtonOpts ℝ} {st0 st : NewtonStatus ℝ}

/-! ### C33: when the iteration stops -/

/-- the termination test after `k` updates: the last update was shorter than `dx` in every component, or the residual
is below `tol` -/
def BroydenStops (f : (Fin n → ℝ) → Fin n → ℝ) (dx tol : ℝ) (xs : ℕ → Fin n → ℝ) (k : ℕ) : Prop :=
  0 < k ∧ (‖xs k - xs (k - 1)‖ < dx ∨ f (xs k) ⬝ᵥ f (xs k) < tol ^ 2)

/-- Broyden's method with damping `1/√(1+|f|²)`, started with the unit matrix -/
structure IsBroydenRun (f : (Fin n → ℝ) → Fin n → ℝ) (N : ℕ) (xs : ℕ → Fin n → ℝ)
    (Bs : ℕ → Matrix (Fin n) (Fin n) ℝ) : Prop where
  start : Bs 0 = 1
  step : ∀ k < N, xs (k + 1) = xs k - (1 / Real.sqrt (1 + f (xs k) ⬝ᵥ f (xs k))) • (Bs k *ᵥ f (xs k))
  upd : ∀ k < N, Bs (k + 1) = Bs k +
    (1 / ((xs (k + 1) - xs k) ⬝ᵥ Bs k *ᵥ (f (xs (k + 1)) - f (xs k)))) •
      vecMulVec ((xs (k + 1) - xs k) - Bs k *ᵥ (f (xs (k + 1)) - f (xs k))) ((xs (k + 1) - xs k) ᵥ* Bs k)

/-- the trace of a run of `broyden_iterate` -/
theorem broyden_trace (h : broydenIterate fn x o st0 = some (.ret (xr, st))) :
    ∃ (N : ℕ) (xs : ℕ → Fin n → ℝ) (Bs : ℕ → Matrix (Fin n) (Fin n) ℝ),
      xs 0 = x ∧ xs N = xr ∧ st.iters = N + 1 ∧ st.res = Real.sqrt (fn xr ⬝ᵥ fn xr) ∧
      (∀ k < N, ((k : ℤ) + 1 < o.maxit) ∧ ¬ BroydenStops fn o.dxDelta o.tol xs k) ∧
      (o.maxit ≤ N + 1 ∨ BroydenStops fn o.dxDelta o.tol xs N) ∧
      (o.maxStep ≤ 0 → IsBroydenRun fn N xs Bs) := by
  obtain ⟨s, hr, hd⟩ := runLoop_some (show runLoop _ _ _ = some _ from h)
  obtain ⟨N, hN, hs, hnext⟩ := broyden_reach hr
  set S := broydenStates fn x o st0 with hS
  have hterm : ∀ k ≤ N, (S k).term = true ↔ BroydenStops fn o.dxDelta o.tol (fun k => (S k).x) k := by
    intro k hk
    cases k with
    | zero =>
      refine ⟨fun h => ?_, fun h => absurd h.1 (lt_irrefl 0)⟩
      exact absurd (show (false : Bool) = true from h) (by simp)
    | succ k =>
      rw [broyden_term (hnext k (by omega))]
      exact ⟨fun h => ⟨Nat.succ_pos k, h⟩, fun h => h.2⟩
  have hit : ∀ k ≤ N, (S k).iters = k + 1 := by
    intro k hk
    induction k with
    | zero => rfl
    | succ k ih => rw [(broydenBody_iters (hnext k (by omega))).1, ih (by omega)]
  have hfin : (¬ ((S N).term = false ∧ ((S N).iters : ℤ) < o.maxit)) ∧ xr = (S N).x ∧
      st = { st0 with conv := 0, res := ssqrt (S N).res2, iters := (S N).iters } := by
    rw [hs] at hd
    unfold broydenBody at hd
    split_ifs at hd with hc
    simp only [LoopStep.done.injEq, Outcome.ret.injEq, Prod.mk.injEq] at hd
    exact ⟨hc, hd.1.symm, hd.2.symm⟩
  obtain ⟨hc, hx, hst⟩ := hfin
  refine ⟨N, fun k => (S k).x, fun k => Matrix.of (S k).Jaci, rfl, hx.symm, ?_, ?_, ?_, ?_, ?_⟩
  · rw [hst]; exact hit N le_rfl
  · rw [hst, hx]
    simp only [ssqrt_real, (broyden_state (fn := fn) (x := x) (o := o) (st0 := st0) N).2, hS]
  · intro k hk
    obtain ⟨-, h1, h2⟩ := broydenBody_iters (hnext k hk)
    rw [hit k hk.le] at h1
    refine ⟨by exact_mod_cast h1, fun hc => ?_⟩
    rw [← hterm k hk.le, h2] at hc
    cases hc
  · by_cases ht : (S N).term = true
    · exact .inr ((hterm N le_rfl).1 ht)
    · refine .inl ?_
      rw [Bool.not_eq_true] at ht
      have hge : ¬ (((S N).iters : ℤ) < o.maxit) := fun h => hc ⟨ht, h⟩
      rw [hit N le_rfl, not_lt] at hge
      exact_mod_cast hge
  · intro hm
    have hms : maxStep2 o ≤ 0 := by
      unfold maxStep2; rw [if_neg (by simpa using hm)]; simp
    refine ⟨?_, ?_, ?_⟩
    · ext i j
      change (eye n : Mat ℝ n) i j = _
      simp [eye, Matrix.one_apply]
    · intro k hk
      obtain ⟨h1, -, -, -⟩ := broyden_next (hnext k hk)
      obtain ⟨hf, hr2⟩ := broyden_state (fn := fn) (x := x) (o := o) (st0 := st0) k
      rw [← hS] at hf hr2
      funext i
      simp only [h1, broydenDir, limitDir_off hms, hf, hr2, mulVec_real, broydenLambda, lit_real, ssqrt_real,
        Pi.sub_apply, Pi.smul_apply, smul_eq_mul, Rat.cast_one]
      ring
    · intro k hk
      obtain ⟨-, h2, -, h4⟩ := broyden_next (hnext k hk)
      obtain ⟨hf, -⟩ := broyden_state (fn := fn) (x := x) (o := o) (st0 := st0) k
      rw [← hS] at hf
      simp only [h4]
      rw [broydenUpdate_good, h2, hf]
      rfl

/-- **C33, what holds**: `broyden_iterate` stops after the first update that is shorter than `dx_delta` or leaves a
residual below `tol`, and otherwise when the number of iterations reaches `maxit`; the reported residual and count are
those of the returned point.  So SUCCESS with `iters < maxit` does mean that one of the two tests was met.  Missing:
the same when the limit was reached, see `C33_refuted`. -/
theorem C33_stop_partial (h : broydenIterate fn x o st0 = some (.ret (xr, st))) :
    ∃ (N : ℕ) (xs : ℕ → Fin n → ℝ),
      xs 0 = x ∧ xs N = xr ∧ st.iters = N + 1 ∧ st.res = Real.sqrt (∑ i, fn xr i ^ 2) ∧
      (∀ k < N, ((k : ℤ) + 1 < o.maxit) ∧ ¬ BroydenStops fn o.dxDelta o.tol xs k) ∧
      (o.maxit ≤ st.iters ∨ BroydenStops fn o.dxDelta o.tol xs N) := by
  obtain ⟨N, xs, Bs, h1, h2, h3, h4, h5, h6, -⟩ := broyden_trace h
  refine ⟨N, xs, h1, h2, h3, ?_, h5, ?_⟩
  · rw [h4]
    congr 1
    exact Finset.sum_congr rfl fun i _ => (pow_two _).symm
  · rw [h3]; exact_mod_cast h6

/-! ### C85: convergence -/

/-- **C85, the recurrence.**  Without a step limit `broyden_iterate` runs Broyden's "good" method. -/
theorem C85_recurrence (hm : o.maxStep ≤ 0) (h : broydenIterate fn x o st0 = some (.ret (xr, st))) :
    ∃ (xs : ℕ → Fin n → ℝ) (Bs : ℕ → Matrix (Fin n) (Fin n) ℝ),
      xs 0 = x ∧ xs (st.iters - 1) = xr ∧ IsBroydenRun fn (st.iters - 1) xs Bs := by
  obtain ⟨N, xs, Bs, h1, h2, h3, -, -, -, h7⟩ := broyden_trace h
  refine ⟨xs, Bs, h1, ?_, ?_⟩ <;> rw [h3, Nat.add_sub_cancel]
  · exact h2
  · exact h7 hm

/-- `f` has the root `r`, there its Jacobi matrix `J` is within 1/8 of the unit matrix, and `f` is linear up to a relative
error of at most 1/32 on the ball of radius `ε ≤ 1` around `r` -/
structure NearIdentity (f : (Fin n → ℝ) → Fin n → ℝ) (r : Fin n → ℝ) (J : Matrix (Fin n) (Fin n) ℝ) (K ε : ℝ) : Prop where
  root : f r = 0
  jac : ∀ v, elen (J *ᵥ v - v) ≤ 1 / 8 * elen v
  lin : ∀ u v, elen (u - r) ≤ ε → elen (v - r) ≤ ε →
    elen (f u - f v - J *ᵥ (u - v)) ≤ K * max (elen (u - r)) (elen (v - r)) * elen (u - v)
  nonneg : 0 ≤ K
  rad : ε ≤ 1
  small : K * ε ≤ 1 / 32

theorem NearIdentity.residual {f : (Fin n → ℝ) → Fin n → ℝ} {r : Fin n → ℝ} {J : Matrix (Fin n) (Fin n) ℝ} {K ε : ℝ}
    (hf : NearIdentity f r J K ε) {u : Fin n → ℝ} (hu : elen (u - r) ≤ ε) :
    elen (f u - J *ᵥ (u - r)) ≤ 1 / 32 * elen (u - r) ∧ elen (f u) ≤ 6 / 5 * elen (u - r) ∧
    elen (u - r) ≤ 5 / 4 * elen (f u) := by
  have h0 := elen_nonneg (u - r)
  have h1 := hf.lin u r hu (by rw [sub_self, elen_zero]; exact h0.trans hu)
  rw [hf.root, sub_zero, sub_self, elen_zero, max_eq_left h0] at h1
  have h2 : K * elen (u - r) ≤ 1 / 32 := (mul_le_mul_of_nonneg_left hu hf.nonneg).trans hf.small
  have h3 : elen (f u - J *ᵥ (u - r)) ≤ 1 / 32 * elen (u - r) := h1.trans (mul_le_mul_of_nonneg_right h2 h0)
  have h4 := hf.jac (u - r)
  have h5 : elen (f u - (u - r)) ≤ 1 / 32 * elen (u - r) + 1 / 8 * elen (u - r) := by
    have : f u - (u - r) = (f u - J *ᵥ (u - r)) + (J *ᵥ (u - r) - (u - r)) := by abel
    rw [this]
    exact (elen_add _ _).trans (add_le_add h3 h4)
  refine ⟨h3, ?_, ?_⟩
  · have := elen_add (f u - (u - r)) (u - r)
    rw [sub_add_cancel] at this
    linarith
  · have := elen_sub (f u) (f u - (u - r))
    rw [sub_sub_cancel] at this
    linarith

/-- contraction of the damped recurrence -/
theorem broydenRun_contracts {f : (Fin n → ℝ) → Fin n → ℝ} {r : Fin n → ℝ} {J : Matrix (Fin n) (Fin n) ℝ} {K ε : ℝ}
    (hf : NearIdentity f r J K ε) {N : ℕ} {xs : ℕ → Fin n → ℝ} {Bs : ℕ → Matrix (Fin n) (Fin n) ℝ}
    (hrun : IsBroydenRun f N xs Bs) (h0 : elen (xs 0 - r) ≤ ε) :
    ∀ k ≤ N, (elen (xs k - r) ≤ (3 / 4) ^ k * elen (xs 0 - r)) ∧
      (0 < k → elen (xs k - r) ≤ 3 / 4 * elen (xs (k - 1) - r)) ∧
      ∃ A, Bs k * A = 1 ∧ OpNear (1 / 8 + 4 * K * elen (xs 0 - r) * (1 - (3 / 4) ^ k)) A J := by
  set e0 := elen (xs 0 - r) with he0
  have hK0 : 0 ≤ e0 := elen_nonneg _
  have hKe : K * e0 ≤ 1 / 32 := (mul_le_mul_of_nonneg_left h0 hf.nonneg).trans hf.small
  have hKn : 0 ≤ K * e0 := mul_nonneg hf.nonneg hK0
  intro k
  induction k with
  | zero =>
    intro _
    refine ⟨by simp [he0], fun h => absurd h (lt_irrefl 0), 1, by rw [hrun.start, one_mul], ?_⟩
    intro v
    have : elen ((1 : Matrix (Fin n) (Fin n) ℝ) *ᵥ v - J *ᵥ v) = elen (J *ᵥ v - v) := by
      rw [one_mulVec, ← neg_sub, elen_neg]
    rw [this, pow_zero, sub_self, mul_zero, add_zero]
    exact hf.jac v
  | succ k ih =>
    intro hk
    obtain ⟨i1, -, A, hBA, hA⟩ := ih (by omega)
    have hp0 : (0 : ℝ) < (3 / 4) ^ k := by positivity
    have hp1 : ((3 : ℝ) / 4) ^ k ≤ 1 := pow_le_one₀ (by norm_num) (by norm_num)
    have hps : ((3 : ℝ) / 4) ^ (k + 1) = 3 / 4 * (3 / 4) ^ k := by ring
    have hek : elen (xs k - r) ≤ e0 := i1.trans (by nlinarith)
    have hekε : elen (xs k - r) ≤ ε := hek.trans h0
    set e := xs k - r with he
    set B := Bs k with hB
    set c := 1 / 8 + 4 * K * e0 * (1 - (3 / 4) ^ k) with hc
    have hc4 : c ≤ 1 / 4 := by rw [hc]; nlinarith
    have hc0 : 0 ≤ c := by rw [hc]; nlinarith
    have hA1 : ∀ v, elen (A *ᵥ v - v) ≤ 3 / 8 * elen v := by
      intro v
      have : A *ᵥ v - v = (A *ᵥ v - J *ᵥ v) + (J *ᵥ v - v) := by abel
      rw [this]
      refine (elen_add _ _).trans ?_
      have h1 := (hA v).trans (mul_le_mul_of_nonneg_right hc4 (elen_nonneg v))
      have h2 := hf.jac v
      linarith
    have hAB : A * B = 1 := mul_eq_one_comm.1 hBA
    have hBn : ∀ v, elen (B *ᵥ v) ≤ 8 / 5 * elen v := by
      intro v
      have h1 := hA1 (B *ᵥ v)
      rw [mulVec_mulVec, hAB, one_mulVec] at h1
      have h2 := elen_sub v (v - B *ᵥ v)
      rw [sub_sub_cancel] at h2
      linarith
    obtain ⟨r1, r2, r3⟩ := hf.residual hekε
    have hstep := hrun.step k (by omega)
    set fx := f (xs k) with hfx
    set lam := 1 / Real.sqrt (1 + fx ⬝ᵥ fx) with hlam
    have hfx2 : fx ⬝ᵥ fx ≤ 3 := by
      rw [← elen_sq]
      have : elen fx ≤ 6 / 5 := r2.trans (by nlinarith [hf.rad])
      nlinarith [elen_nonneg fx]
    have hfx0 : 0 ≤ fx ⬝ᵥ fx := by rw [← elen_sq]; positivity
    have hl1 : lam ≤ 1 := by
      rw [hlam, div_le_one (by positivity)]
      exact Real.one_le_sqrt.2 (by linarith)
    have hl2 : 1 / 2 ≤ lam := by
      rw [hlam]
      refine one_div_le_one_div_of_le (by positivity) ?_
      rw [Real.sqrt_le_left (by norm_num)]
      linarith
    have hene : 0 ≤ elen e := elen_nonneg e
    have hcon : elen (xs (k + 1) - r) ≤ 3 / 4 * elen e := by
      have e1 : xs (k + 1) - r = (1 - lam) • e + lam • (B *ᵥ (A *ᵥ e - fx)) := by
        rw [hstep, mulVec_sub, mulVec_mulVec, hBA, one_mulVec]
        funext i
        simp only [he, Pi.sub_apply, Pi.add_apply, Pi.smul_apply, smul_eq_mul]
        ring
      have h1 : elen (A *ᵥ e - fx) ≤ 9 / 32 * elen e := by
        have : A *ᵥ e - fx = (A *ᵥ e - J *ᵥ e) - (fx - J *ᵥ e) := by abel
        rw [this]
        refine (elen_sub _ _).trans ?_
        have := (hA e).trans (mul_le_mul_of_nonneg_right hc4 hene)
        linarith
      have h2 := hBn (A *ᵥ e - fx)
      rw [e1]
      refine (elen_add _ _).trans ?_
      rw [elen_smul, elen_smul, abs_of_nonneg (by linarith : 0 ≤ 1 - lam), abs_of_nonneg (by linarith : 0 ≤ lam)]
      have h3 : elen (B *ᵥ (A *ᵥ e - fx)) ≤ 9 / 20 * elen e := by linarith
      nlinarith
    have hcon' : elen (xs (k + 1) - r) ≤ (3 / 4) ^ (k + 1) * e0 := by rw [hps]; nlinarith
    refine ⟨hcon', fun _ => hcon, ?_⟩
    have hupd : Bs (k + 1) = goodBroyden B (xs (k + 1) - xs k) (f (xs (k + 1)) - f (xs k)) := hrun.upd k (by omega)
    set dx := xs (k + 1) - xs k with hdx
    set df := f (xs (k + 1)) - f (xs k) with hdf
    have hcs : c + K * ((3 / 4) ^ k * e0) = 1 / 8 + 4 * K * e0 * (1 - (3 / 4) ^ (k + 1)) := by
      rw [hc, hps]; ring
    by_cases hz : dx = 0
    · refine ⟨A, ?_, ?_⟩
      · rw [hupd, hz]
        have : vecMulVec (0 - B *ᵥ df) (0 ᵥ* B) = 0 := by
          rw [zero_vecMul, vecMulVec_zero]
        unfold goodBroyden
        rw [this, smul_zero, add_zero, hBA]
      · intro v
        refine (hA v).trans (mul_le_mul_of_nonneg_right ?_ (elen_nonneg v))
        rw [← hcs]
        have : 0 ≤ K * ((3 / 4) ^ k * e0) := mul_nonneg hf.nonneg (by positivity)
        linarith
    · have hdp : 0 < elen dx := lt_of_le_of_ne (elen_nonneg dx) (fun h => hz (elen_eq_zero.1 h.symm))
      have hlin : elen (df - J *ᵥ dx) ≤ K * ((3 / 4) ^ k * e0) * elen dx := by
        have h1 := hf.lin (xs (k + 1)) (xs k) (hcon.trans (by linarith)) hekε
        refine h1.trans (mul_le_mul_of_nonneg_right (mul_le_mul_of_nonneg_left ?_ hf.nonneg) hdp.le)
        exact max_le (hcon.trans (by linarith)) i1
      refine ⟨goodBroydenJ A dx df, ?_, ?_⟩
      · rw [hupd]
        refine goodBroyden_inv hBA ?_ ?_
        · have h1 : elen (df - A *ᵥ dx) ≤ 9 / 32 * elen dx := by
            have : df - A *ᵥ dx = (df - J *ᵥ dx) - (A *ᵥ dx - J *ᵥ dx) := by abel
            rw [this]
            refine (elen_sub _ _).trans ?_
            have h2 := (hA dx).trans (mul_le_mul_of_nonneg_right hc4 hdp.le)
            have h3 : K * ((3 / 4) ^ k * e0) ≤ 1 / 32 := by
              have : (3 / 4) ^ k * (K * e0) ≤ 1 * (K * e0) := mul_le_mul_of_nonneg_right hp1 hKn
              linarith
            have h4 := hlin.trans (mul_le_mul_of_nonneg_right h3 hdp.le)
            linarith
          have h2 := hBn (df - A *ᵥ dx)
          have h3 : B *ᵥ df = dx + B *ᵥ (df - A *ᵥ dx) := by
            rw [mulVec_sub B df (A *ᵥ dx), mulVec_mulVec, hBA, one_mulVec]; abel
          have h4 := abs_dot_le dx (B *ᵥ (df - A *ᵥ dx))
          have h5 : elen (B *ᵥ (df - A *ᵥ dx)) ≤ 9 / 20 * elen dx := by linarith
          have h6 : dx ⬝ᵥ dx = elen dx ^ 2 := (elen_sq dx).symm
          rw [h3, dotProduct_add, h6]
          have h7 := neg_abs_le (dx ⬝ᵥ B *ᵥ (df - A *ᵥ dx))
          have h8 := mul_le_mul_of_nonneg_left h5 hdp.le
          have h9 : 0 < elen dx * elen dx := mul_pos hdp hdp
          intro h10
          rw [pow_two] at h10
          linarith
        · rw [← elen_sq]; positivity
      · have := opNear_update hA hc0 hdp hlin
        rw [hcs] at this
        exact this

/-- **C85, convergence.**  Near a root with Jacobi matrix close to the unit matrix, every update reduces the distance to
the root by at least a quarter; and if `maxit` leaves room for the residual to fall below `tol`, the returned point is
as close to the root as the tolerances ask for. -/
theorem C85_converges {r : Fin n → ℝ} {J : Matrix (Fin n) (Fin n) ℝ} {K ε : ℝ} (hf : NearIdentity fn r J K ε)
    (hm : o.maxStep ≤ 0) (hx : elen (x - r) ≤ ε) (h : broydenIterate fn x o st0 = some (.ret (xr, st))) :
    elen (xr - r) ≤ (3 / 4) ^ (st.iters - 1) * elen (x - r) ∧
    (2 ≤ o.maxit → 6 / 5 * (3 / 4) ^ (o.maxit.toNat - 1) * elen (x - r) < o.tol →
      elen (xr - r) ≤ 5 / 4 * o.tol ∨ elen (xr - r) ≤ 3 * Real.sqrt n * o.dxDelta) := by
  obtain ⟨N, xs, Bs, h1, h2, h3, -, h5, h6, h7⟩ := broyden_trace h
  have hrun := broydenRun_contracts hf (h7 hm) (by rw [h1]; exact hx)
  have hN := hrun N le_rfl
  rw [h1, h2] at hN
  refine ⟨by rw [h3, Nat.add_sub_cancel]; exact hN.1, fun hmx htol => ?_⟩
  have htol0 : 0 < o.tol := lt_of_le_of_lt (by have := elen_nonneg (x - r); positivity) htol
  have hxr : elen (xr - r) ≤ ε := hN.1.trans (by
    have hp : ((3 : ℝ) / 4) ^ N ≤ 1 := pow_le_one₀ (by norm_num) (by norm_num)
    have := elen_nonneg (x - r)
    nlinarith)
  obtain ⟨-, r2, r3⟩ := hf.residual hxr
  have hstop : BroydenStops fn o.dxDelta o.tol xs N := by
    rcases h6 with h6 | h6
    · have hNm : o.maxit.toNat - 1 ≤ N := by omega
      refine ⟨by omega, .inr ?_⟩
      rw [h2, ← elen_sq]
      have hp : ((3 : ℝ) / 4) ^ N ≤ (3 / 4) ^ (o.maxit.toNat - 1) :=
        pow_le_pow_of_le_one (by norm_num) (by norm_num) hNm
      have h8 := elen_nonneg (x - r)
      have : elen (fn xr) < o.tol := by
        refine lt_of_le_of_lt (r2.trans ?_) htol
        nlinarith [hN.1]
      exact pow_lt_pow_left₀ this (elen_nonneg _) (by norm_num)
    · exact h6
  obtain ⟨hpos, hs | hs⟩ := hstop
  · right
    have h8 := hN.2.1 hpos
    rw [h2] at hs
    have h9 := elen_le_norm (xr - xs (N - 1))
    have h10 : elen (xs (N - 1) - r) ≤ elen (xr - xs (N - 1)) + elen (xr - r) := by
      have := elen_sub (xr - r) (xr - xs (N - 1))
      have e : xr - r - (xr - xs (N - 1)) = xs (N - 1) - r := by abel
      rw [e] at this
      linarith
    have h11 : Real.sqrt n * ‖xr - xs (N - 1)‖ ≤ Real.sqrt n * o.dxDelta :=
      mul_le_mul_of_nonneg_left hs.le (Real.sqrt_nonneg _)
    linarith
  · left
    rw [h2, ← elen_sq] at hs
    have : elen (fn xr) < o.tol := lt_of_pow_lt_pow_left₀ 2 htol0.le hs
    linarith

/-- **C85, scalar affine functions.**  For `f(x) = a (x - r)` with `a ≠ 0`, started away from the root, the second and
later updates multiply the error by `1 - 1/√(1 + a²e²)`: it decreases from any starting point, and cubically in the
end. -/
theorem C85_scalar_affine {a r : ℝ} (ha : a ≠ 0) {f : (Fin 1 → ℝ) → Fin 1 → ℝ} (hf : ∀ u, f u = fun i => a * (u i - r))
    {N : ℕ} {xs : ℕ → Fin 1 → ℝ} {Bs : ℕ → Matrix (Fin 1) (Fin 1) ℝ} (hrun : IsBroydenRun f N xs Bs)
    (h0 : xs 0 0 ≠ r) {k : ℕ} (hk1 : 0 < k) (hk : k < N) :
    xs (k + 1) 0 - r = (1 - 1 / Real.sqrt (1 + a ^ 2 * (xs k 0 - r) ^ 2)) * (xs k 0 - r) ∧
    |xs (k + 1) 0 - r| ≤ a ^ 2 / 2 * |xs k 0 - r| ^ 3 := by
  have hff : ∀ u : Fin 1 → ℝ, f u ⬝ᵥ f u = a ^ 2 * (u 0 - r) ^ 2 := by
    intro u; rw [hf]; simp [dotProduct]; ring
  have hmv : ∀ (M : Matrix (Fin 1) (Fin 1) ℝ) (v : Fin 1 → ℝ), (M *ᵥ v) 0 = M 0 0 * v 0 := by
    intro M v; simp [Matrix.mulVec, dotProduct]
  have hvm : ∀ (M : Matrix (Fin 1) (Fin 1) ℝ) (v : Fin 1 → ℝ), (v ᵥ* M) 0 = v 0 * M 0 0 := by
    intro M v; simp [Matrix.vecMul, dotProduct]
  have hdp : ∀ v w : Fin 1 → ℝ, v ⬝ᵥ w = v 0 * w 0 := by
    intro v w; simp [dotProduct]
  -- the recurrence in one dimension
  have hx : ∀ j < N, xs (j + 1) 0 - r = (xs j 0 - r) -
      1 / Real.sqrt (1 + a ^ 2 * (xs j 0 - r) ^ 2) * (Bs j 0 0 * (a * (xs j 0 - r))) := by
    intro j hj
    have := congrFun (hrun.step j hj) 0
    rw [hff] at this
    rw [this, Pi.sub_apply, Pi.smul_apply, hmv, hf, smul_eq_mul]
    ring
  have hB : ∀ j < N, xs (j + 1) 0 ≠ xs j 0 → Bs j 0 0 ≠ 0 → Bs (j + 1) 0 0 = 1 / a := by
    intro j hj hne hBj
    have := congrFun (congrFun (hrun.upd j hj) 0) 0
    rw [this, hf, hf]
    simp only [Matrix.add_apply, Matrix.smul_apply, vecMulVec_apply, hdp, hmv, hvm, Pi.sub_apply, smul_eq_mul]
    have hd : xs (j + 1) 0 - xs j 0 ≠ 0 := sub_ne_zero.2 hne
    rw [show a * (xs (j + 1) 0 - r) - a * (xs j 0 - r) = a * (xs (j + 1) 0 - xs j 0) by ring]
    generalize xs (j + 1) 0 - xs j 0 = d at hd
    field_simp
    ring
  have hB0 : ∀ j < N, xs (j + 1) 0 = xs j 0 → Bs (j + 1) 0 0 = Bs j 0 0 := by
    intro j hj he
    have := congrFun (congrFun (hrun.upd j hj) 0) 0
    rw [this]
    simp [vecMulVec_apply, hvm, he]
  have hBk : ∀ j, 0 < j → j ≤ N → Bs j 0 0 = 1 / a := by
    intro j
    induction j with
    | zero => intro h; exact absurd h (lt_irrefl 0)
    | succ j ih =>
      intro _ hj
      rcases Nat.eq_zero_or_pos j with rfl | hjp
      · have hb : Bs 0 0 0 = 1 := by rw [hrun.start]; simp
        refine hB 0 (by omega) (fun he => ?_) (by rw [hb]; exact one_ne_zero)
        have h1 := hx 0 (by omega)
        rw [he, hb] at h1
        have h2 : (1 / Real.sqrt (1 + a ^ 2 * (xs 0 0 - r) ^ 2)) ≠ 0 := by positivity
        have h3 : a * (xs 0 0 - r) ≠ 0 := mul_ne_zero ha (sub_ne_zero.2 h0)
        have h4 := mul_ne_zero h2 h3
        rw [one_mul] at h1
        exact h4 (by linarith)
      · have hb := ih hjp (by omega)
        by_cases he : xs (j + 1) 0 = xs j 0
        · rw [hB0 j (by omega) he, hb]
        · exact hB j (by omega) he (by rw [hb]; exact one_div_ne_zero ha)
  have h1 : xs (k + 1) 0 - r = (1 - 1 / Real.sqrt (1 + a ^ 2 * (xs k 0 - r) ^ 2)) * (xs k 0 - r) := by
    rw [hx k hk, hBk k hk1 hk.le]
    field_simp
  refine ⟨h1, ?_⟩
  rw [h1, abs_mul]
  set e := xs k 0 - r
  set t := a ^ 2 * e ^ 2 with ht
  have ht0 : 0 ≤ t := by positivity
  have hs1 : 1 ≤ Real.sqrt (1 + t) := Real.one_le_sqrt.2 (by linarith)
  have hs2 : Real.sqrt (1 + t) ≤ 1 + t / 2 := by
    rw [Real.sqrt_le_left (by linarith)]; nlinarith
  have hq : 0 ≤ 1 - 1 / Real.sqrt (1 + t) ∧ 1 - 1 / Real.sqrt (1 + t) ≤ t / 2 := by
    have hp : 0 < Real.sqrt (1 + t) := by linarith
    constructor
    · rw [sub_nonneg, div_le_one hp]; exact hs1
    · rw [sub_le_iff_le_add, ← sub_le_iff_le_add', le_div_iff₀ hp]
      nlinarith
  rw [abs_of_nonneg hq.1]
  calc (1 - 1 / Real.sqrt (1 + t)) * |e| ≤ t / 2 * |e| := mul_le_mul_of_nonneg_right hq.2 (abs_nonneg e)
    _ = a ^ 2 / 2 * |e| ^ 3 := by rw [ht, ← sq_abs e]; ring

/-! ### Examples -/

theorem elen_mono {w z : Fin n → ℝ} {M : ℝ} (hM : 0 ≤ M) (h : ∀ i, |w i| ≤ M * |z i|) : elen w ≤ M * elen z := by
  have : elen w ^ 2 ≤ (M * elen z) ^ 2 := by
    rw [mul_pow, elen_sq, elen_sq]
    simp only [dotProduct]
    rw [Finset.mul_sum]
    refine Finset.sum_le_sum fun i _ => ?_
    have h1 := mul_self_le_mul_self (abs_nonneg (w i)) (h i)
    rw [abs_mul_abs_self] at h1
    calc w i * w i ≤ M * |z i| * (M * |z i|) := h1
      _ = M ^ 2 * (|z i| * |z i|) := by ring
      _ = M ^ 2 * (z i * z i) := by rw [abs_mul_abs_self]
  exact le_of_sq_le_sq this (mul_nonneg hM (elen_nonneg z))

theorem abs_le_elen (v : Fin n → ℝ) (i : Fin n) : |v i| ≤ elen v := by
  have : |v i| ^ 2 ≤ elen v ^ 2 := by
    rw [elen_sq, sq_abs, pow_two]
    exact Finset.single_le_sum (f := fun i => v i * v i) (fun j _ => mul_self_nonneg _) (Finset.mem_univ i)
  exact le_of_sq_le_sq this (elen_nonneg v)

/-- `x_i ↦ x_i + x_i²/64` -/
noncomputable def exQuad (n : ℕ) : Vec ℝ n → Vec ℝ n := fun x i => x i + x i ^ 2 / 64

theorem exQuad_near (n : ℕ) : NearIdentity (exQuad n) 0 1 (1 / 32) 1 where
  root := by funext i; simp [exQuad]
  jac := by intro v; rw [one_mulVec, sub_self, elen_zero]; have := elen_nonneg v; positivity
  lin := by
    intro u v _ _
    rw [one_mulVec, sub_zero, sub_zero]
    refine elen_mono (mul_nonneg (by norm_num) (le_max_of_le_left (elen_nonneg u))) fun i => ?_
    have e : (exQuad n u - exQuad n v - (u - v)) i = (u i + v i) / 64 * (u - v) i := by
      simp only [exQuad, Pi.sub_apply]; ring
    rw [e, abs_mul]
    refine mul_le_mul_of_nonneg_right ?_ (abs_nonneg _)
    have h1 := (abs_le_elen u i).trans (le_max_left (elen u) (elen v))
    have h2 := (abs_le_elen v i).trans (le_max_right (elen u) (elen v))
    rw [abs_div, abs_of_pos (by norm_num : (0 : ℝ) < 64)]
    have := abs_add_le (u i) (v i)
    linarith
  nonneg := by norm_num
  rad := le_rfl
  small := by norm_num

/-- a run on this function in two dimensions ends within 0.43 of the root 0 -/
example : ∃ xr st, broydenIterate (exQuad 2) (fun _ => 1 / 2) (nOpts 0 50) nStat = some (.ret (xr, st)) ∧
    elen (xr - 0) ≤ 3 * Real.sqrt 2 * (1 / 10) := by
  obtain ⟨xr, st, h, -⟩ := C33_always_success (exQuad 2) (fun _ => 1 / 2) (nOpts 0 50) nStat
  refine ⟨xr, st, h, ?_⟩
  have hx : elen ((fun _ => 1 / 2 : Fin 2 → ℝ) - 0) ≤ 1 := by
    rw [sub_zero, elen_eq, Real.sqrt_le_left (by norm_num)]
    norm_num [dotProduct, Fin.sum_univ_two]
  have hs : 1 ≤ Real.sqrt 2 := Real.one_le_sqrt.2 (by norm_num)
  rcases (C85_converges (exQuad_near 2) le_rfl hx h).2 (by norm_num [nOpts]) (by
    have : (6 : ℝ) / 5 * (3 / 4) ^ 49 * elen ((fun _ => 1 / 2 : Fin 2 → ℝ) - 0) ≤ 6 / 5 * (3 / 4) ^ 49 * 1 :=
      mul_le_mul_of_nonneg_left hx (by norm_num)
    refine lt_of_le_of_lt this ?_
    norm_num [nOpts]) with h1 | h1
  · refine h1.trans ?_
    norm_num [nOpts]
    linarith
  · simpa [nOpts] using h1

/-- `C85_scalar_affine` applies to a two-update run with `f(x) = 3 (x - 2)` from 0 -/
example : ∃ (xs : ℕ → Fin 1 → ℝ) (Bs : ℕ → Matrix (Fin 1) (Fin 1) ℝ),
    IsBroydenRun (fun u i => 3 * (u i - 2)) 2 xs Bs ∧ xs 0 0 ≠ 2 ∧ (3 : ℝ) ≠ 0 := by
  let nxt : (Fin 1 → ℝ) × Matrix (Fin 1) (Fin 1) ℝ → (Fin 1 → ℝ) × Matrix (Fin 1) (Fin 1) ℝ := fun p =>
    let f : (Fin 1 → ℝ) → Fin 1 → ℝ := fun u i => 3 * (u i - 2)
    let y := p.1 - (1 / Real.sqrt (1 + f p.1 ⬝ᵥ f p.1)) • (p.2 *ᵥ f p.1)
    (y, goodBroyden p.2 (y - p.1) (f y - f p.1))
  refine ⟨fun k => (nxt^[k] (0, 1)).1, fun k => (nxt^[k] (0, 1)).2, ⟨rfl, ?_, ?_⟩, by simp, by norm_num⟩
  · intro k _
    simp only [Function.iterate_succ_apply']
    rfl
  · intro k _
    simp only [Function.iterate_succ_apply']
    rfl

end Verif
