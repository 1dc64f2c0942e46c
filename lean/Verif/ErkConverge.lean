import Verif.Converge
import Verif.ErkReturns
import Verif.Spec.RK

/-!
# Convergence of explicit Runge-Kutta methods for non-autonomous problems; row sums of the shipped explicit tableaux
-/

namespace Verif
open Spec Set

/-! ### row sums -/

/-- `c_i = Σ_j a_ij` -/
def erkRowSums (sc : SolverCoeffs ℚ) : Bool :=
  (List.range sc.ns).all fun i => decide (∑ j ∈ Finset.range sc.ns, sc.a i j = sc.cn i)

theorem erkRowSums_shipped : ∀ m ∈ erkImplemented, erkRowSums (erkCoeffs m) = true := by
  decide +kernel

theorem shipped_row_sums {m : ℤ} (hm : m ∈ erkImplemented) (i : Fin (erkCoeffs m : SolverCoeffs ℝ).ns) :
    ∑ j : Fin (erkCoeffs m : SolverCoeffs ℝ).ns, (erkCoeffs m : SolverCoeffs ℝ).a i j = (erkCoeffs m : SolverCoeffs ℝ).cn i := by
  have h := erkRowSums_shipped m hm
  revert i
  rw [erkCoeffs_cast]
  generalize (erkCoeffs m : SolverCoeffs ℚ) = sc at *
  intro i
  simp only [erkRowSums, List.all_eq_true, List.mem_range, decide_eq_true_eq] at h
  have e := SolverCoeffs.ns_cast (sc := sc)
  have hi : i.val < sc.ns := by rw [← e]; exact i.isLt
  have h' := congrArg (fun x : ℚ => (x : ℝ)) (h i hi)
  push_cast at h'
  simp only [SolverCoeffs.a_cast, SolverCoeffs.cn_cast]
  generalize i.val = iv at h' ⊢
  rw [Fin.sum_univ_eq_sum_range (fun j => ((sc.a iv j : ℚ) : ℝ)), e]
  exact h'

/-! ### adding the time as a component -/

section
variable {n s : ℕ} {f : ℝ → (Fin n → ℝ) → (Fin n → ℝ)}

/-- the autonomous form `(t, y)' = (1, f(t, y))` -/
def autonomize (f : ℝ → (Fin n → ℝ) → (Fin n → ℝ)) (q : ℝ × (Fin n → ℝ)) : ℝ × (Fin n → ℝ) := (1, f q.1 q.2)

theorem autonomize_contDiff {p : ℕ} (hf : ContDiff ℝ p fun q : ℝ × (Fin n → ℝ) => f q.1 q.2) : ContDiff ℝ p (autonomize f) :=
  contDiff_const.prodMk hf

theorem autonomize_solution {u : ℝ → Fin n → ℝ} {t0 t1 : ℝ}
    (hu : ∀ t ∈ Icc t0 t1, HasDerivWithinAt u (f t (u t)) (Icc t0 t1) t) :
    ∀ t ∈ Icc t0 t1, HasDerivWithinAt (fun t => (t, u t)) (autonomize f (t, u t)) (Icc t0 t1) t :=
  fun t ht => (hasDerivWithinAt_id t _).prodMk (hu t ht)

theorem pair_sum (a : Fin s → ℝ) (k : Fin s → Fin n → ℝ) :
    ∑ j, a j • ((1 : ℝ), k j) = (∑ j, a j, ∑ j, a j • k j) := by
  apply Prod.ext
  · rw [Prod.fst_sum]; simp
  · rw [Prod.snd_sum]; rfl

/-- the stages of the non-autonomous step are those of the autonomous one -/
theorem autonomize_stages {A : Fin s → Fin s → ℝ} {b c : Fin s → ℝ} (hc : ∀ i, ∑ j, A i j = c i) {t h : ℝ} {y y' : Fin n → ℝ}
    {k : Fin s → Fin n → ℝ} (hst : IsRKStep A b c f t h y y' k) (i : Fin s) :
    ((1 : ℝ), k i) = autonomize f ((t, y) + h • ∑ j, A i j • ((1 : ℝ), k j)) := by
  rw [pair_sum, autonomize]
  apply Prod.ext
  · rfl
  · have := hst.1 i
    simp only [Prod.smul_mk, Prod.mk_add_mk, smul_eq_mul, hc i]
    rw [mul_comm h]
    exact this

theorem norm_pair (v : Fin n → ℝ) : ‖((0 : ℝ), v)‖ = ‖v‖ := by simp [Prod.norm_def]

theorem sum_weights {A : Fin s → Fin s → ℝ} {b : Fin s → ℝ} {p : ℕ} (hp : 1 ≤ p) (ho : HasOrder A b p) : ∑ i, b i = 1 := by
  have := ho (.node []) (by simpa [RTree.order, RTree.orderList] using hp)
  simpa [RTree.weight, RTree.weightList, RTree.density, RTree.densityList, RTree.orderList] using this

/-- one step of an explicit method of order `p` near the solution of a non-autonomous problem -/
theorem rkStep_error {p : ℕ} (hp : 1 ≤ p) (hf : ContDiff ℝ p fun q : ℝ × (Fin n → ℝ) => f q.1 q.2) {u : ℝ → Fin n → ℝ} {t0 t1 : ℝ}
    (hu : ∀ t ∈ Icc t0 t1, HasDerivWithinAt u (f t (u t)) (Icc t0 t1) t)
    {A : Fin s → Fin s → ℝ} {b c : Fin s → ℝ} (ho : HasOrder A b p) (hA : ∀ i j, i ≤ j → A i j = 0) (hc : ∀ i, ∑ j, A i j = c i) :
    ∃ Λ C M h0 : ℝ, 0 ≤ Λ ∧ 0 ≤ C ∧ 0 ≤ M ∧ 0 < h0 ∧ ∀ (t h : ℝ) (y y' : Fin n → ℝ) (k : Fin s → Fin n → ℝ),
      t0 ≤ t → 0 ≤ h → h ≤ h0 → t + h ≤ t1 → ‖y - u t‖ ≤ 1 → IsRKStep A b c f t h y y' k →
      ‖y' - u (t + h)‖ ≤ (1 + Λ * h) * ‖y - u t‖ + C * h ^ (p + 1) ∧ ∀ i, ‖k i‖ ≤ M := by
  obtain ⟨Λ, C, M, h0, hΛ, hC, hM, hh0, hstep⟩ :=
    explicit_step_error hp (autonomize_contDiff hf) (autonomize_solution hu) ho hA
  refine ⟨Λ, C, M, h0, hΛ, hC, hM, hh0, ?_⟩
  intro t h y y' k ht hh hle hth hy hst
  have e1 : (t, y) + h • ((1 : ℝ), ∑ j, b j • k j) - (t + h, u (t + h)) = (0, y' - u (t + h)) := by
    rw [Prod.smul_mk, Prod.mk_add_mk, smul_eq_mul, mul_one, ← hst.2, Prod.mk_sub_mk, sub_self]
  have e2 : (t, y) - (t, u t) = (0, y - u t) := by rw [Prod.mk_sub_mk, sub_self]
  obtain ⟨key, hk⟩ := hstep t h (t, y) (fun i => (1, k i)) ht hh hle hth (by rw [e2, norm_pair]; exact hy) (autonomize_stages hc hst)
  rw [pair_sum, sum_weights hp ho, e1, e2, norm_pair, norm_pair] at key
  exact ⟨key, fun i => (norm_snd_le ((1 : ℝ), k i)).trans (hk i)⟩

theorem pow_step {p : ℕ} {C d h : ℝ} (hC : 0 ≤ C) (hd : 0 ≤ d) (hdh : d ≤ h) : C * d ^ (p + 1) ≤ C * d * h ^ p := by
  rw [pow_succ', mul_assoc]
  exact mul_le_mul_of_nonneg_left (mul_le_mul_of_nonneg_left (pow_le_pow_left₀ hd hdh _) hd) hC

/-- a step bound that keeps `G h^p` below one -/
theorem small_pow {p : ℕ} (hp : 1 ≤ p) {G h : ℝ} (hG : 0 ≤ G) (hh : 0 ≤ h) (hle : h ≤ min 1 (1 / (G + 1))) : G * h ^ p ≤ 1 := by
  have h1 : h ≤ 1 := hle.trans (min_le_left _ _)
  have h2 : h ≤ 1 / (G + 1) := hle.trans (min_le_right _ _)
  have hpw : h ^ p ≤ h := by
    calc h ^ p ≤ h ^ 1 := pow_le_pow_of_le_one hh h1 hp
      _ = h := pow_one h
  rw [le_div_iff₀ (by positivity)] at h2
  have := mul_le_mul_of_nonneg_left hpw hG
  nlinarith

/-- **Convergence of explicit methods.**  A consistent chain of steps of an explicit method that satisfies the order conditions up to
`p ≥ 1`, from the exact initial value, stays within `C h^p` of the solution, for all step sequences with steps at most `h ≤ h₀`. -/
theorem explicit_converges {p : ℕ} (hp : 1 ≤ p) (hf : ContDiff ℝ p fun q : ℝ × (Fin n → ℝ) => f q.1 q.2) {u : ℝ → Fin n → ℝ} {t0 t1 : ℝ}
    (h01 : t0 ≤ t1) (hu : ∀ t ∈ Icc t0 t1, HasDerivWithinAt u (f t (u t)) (Icc t0 t1) t)
    {A : Fin s → Fin s → ℝ} {b c : Fin s → ℝ} (ho : HasOrder A b p) (hA : ∀ i j, i ≤ j → A i j = 0) (hc : ∀ i, ∑ j, A i j = c i) :
    ∃ C h0 : ℝ, 0 ≤ C ∧ 0 < h0 ∧ ∀ (h : ℝ) (ts : List ℝ) (ys : List (Fin n → ℝ)), 0 ≤ h → h ≤ h0 → ts.length = ys.length →
      ts.head? = some t0 → ys.head? = some (u t0) → (∀ t ∈ ts, t0 ≤ t ∧ t ≤ t1) →
      (∀ (i : ℕ) (t t' : ℝ), ts[i]? = some t → ts[i + 1]? = some t' → t < t' ∧ t' - t ≤ h ∧
        ∃ y y' k, ys[i]? = some y ∧ ys[i + 1]? = some y' ∧ IsRKStep A b c f t (t' - t) y y' k) →
      ∀ (i : ℕ) (t : ℝ) (y : Fin n → ℝ), ts[i]? = some t → ys[i]? = some y → ‖y - u t‖ ≤ C * h ^ p := by
  obtain ⟨Λ, C, M, h0, hΛ, hC, hM, hh0, hstep⟩ := rkStep_error hp hf hu ho hA hc
  have hG0 : 0 ≤ Real.exp (Λ * (t1 - t0)) * ((t1 - t0) * C) := by
    have : 0 ≤ t1 - t0 := by linarith
    positivity
  set G := Real.exp (Λ * (t1 - t0)) * ((t1 - t0) * C) with hG
  refine ⟨G, min h0 (min 1 (1 / (G + 1))), hG0, lt_min hh0 (lt_min one_pos (by positivity)), ?_⟩
  intro h ts ys hpos hle hlen hth hyh hrange hch
  refine chain_converges hΛ hC (pow_nonneg hpos p) hlen hth hyh hrange (small_pow hp hG0 hpos (hle.trans (min_le_right _ _))) ?_
  intro i t t' ht ht'
  obtain ⟨h1, h2, y, y', k, hy, hy', hst⟩ := hch i t t' ht ht'
  obtain ⟨r1, -⟩ := hrange t (List.mem_of_getElem? ht)
  obtain ⟨-, r2⟩ := hrange t' (List.mem_of_getElem? ht')
  refine ⟨h1.le, y, y', hy, hy', fun hone => ?_⟩
  obtain ⟨key, -⟩ := hstep t (t' - t) y y' k r1 (by linarith) (h2.trans (hle.trans (min_le_left _ _))) (by linarith) hone hst
  rw [add_sub_cancel] at key
  exact key.trans (add_le_add le_rfl (pow_step hC (by linarith) h2))

end

/-! ### the adaptive loop stays near the solution -/

section
variable {n : ℕ} {nd : Bool} {f : ℝ → Vec ℝ n → Vec ℝ n} {t0 t1 : ℝ} {u : ℝ → Vec ℝ n}
  {o : ErkOpts ℝ} {dt : ℝ} {oo : OutOpts} {m : ℤ}

/-- the stages and the error estimate of steps of an explicit method from bounded values -/
theorem rkStep_estimate {s q : ℕ} (hf : ContDiff ℝ q fun q : ℝ × (Fin n → ℝ) => f q.1 q.2)
    {A : Fin s → Fin s → ℝ} {b b2 c : Fin s → ℝ} (ho : HasOrder A b q) (ho2 : HasOrder A b2 q) (hA : ∀ i j, i ≤ j → A i j = 0)
    (hc : ∀ i, ∑ j, A i j = c i) (R : ℝ) :
    ∃ C h0 : ℝ, 0 ≤ C ∧ 0 < h0 ∧ ∀ (t h : ℝ) (y y' : Fin n → ℝ) (k : Fin s → Fin n → ℝ), |t| ≤ R → ‖y‖ ≤ R → 0 ≤ h → h ≤ h0 →
      IsRKStep A b c f t h y y' k → ‖h • ∑ i, (b2 i - b i) • k i‖ ≤ C * h ^ (q + 1) := by
  obtain ⟨C, h0, hC, hh0, key⟩ := explicit_estimate (autonomize_contDiff hf) ho ho2 hA (le_max_right R 0)
  refine ⟨C, h0, hC, hh0, ?_⟩
  intro t h y y' k ht hy hh hle hst
  have := key h (t, y) (fun i => (1, k i)) hh hle
    (by rw [Prod.norm_def]; exact max_le (ht.trans (le_max_left _ _)) (hy.trans (le_max_left _ _))) (autonomize_stages hc hst)
  rw [pair_sum, Prod.smul_mk] at this
  exact (norm_snd_le (h • ∑ i, (b2 i - b i), h • ∑ i, (b2 i - b i) • k i)).trans this

/-- the step size is at most `H` and the error obeys the discrete Gronwall inequality -/
def InTube (u : ℝ → Vec ℝ n) (t0 Λ B H : ℝ) (s : ErkState ℝ n) : Prop :=
  s.dt ≤ H ∧ ‖s.y - u s.t‖ ≤ Real.exp (Λ * (s.t - t0)) * ((s.t - t0) * B)

/-- Near a solution, with `max_dt` small enough: the adaptive loop stays in a tube of radius one around the solution, its stages are bounded
and its error estimates are of the order `q + 1`, with constants that do not depend on the options. -/
theorem tube {p q : ℕ} (hp : 1 ≤ p) (hf : ContDiff ℝ p fun q : ℝ × (Fin n → ℝ) => f q.1 q.2) (h01 : t0 < t1)
    (hu : ∀ t ∈ Icc t0 t1, HasDerivWithinAt u (f t (u t)) (Icc t0 t1) t) (hm : m ∈ erkImplemented)
    (ho : HasOrder (fun i j : Fin (erkCoeffs m : SolverCoeffs ℝ).ns => (erkCoeffs m : SolverCoeffs ℝ).a i j)
      (fun i => (erkCoeffs m : SolverCoeffs ℝ).bw i) p)
    (ho2 : HasOrder (fun i j : Fin (erkCoeffs m : SolverCoeffs ℝ).ns => (erkCoeffs m : SolverCoeffs ℝ).a i j)
      (fun i => (erkCoeffs m : SolverCoeffs ℝ).bw2 i) q) (hqp : q ≤ p) (hb2 : (erkCoeffs m : SolverCoeffs ℝ).b2 ≠ []) :
    ∃ M h0 : ℝ, 0 ≤ M ∧ 0 < h0 ∧ ∀ (nd : Bool) (o : ErkOpts ℝ) (oo : OutOpts), o.adaptive = true → 0 < o.maxDt → o.maxDt ≤ h0 →
      ∃ Λ B : ℝ,
        (∀ d, d ≤ o.maxDt → InTube u t0 Λ B o.maxDt (erkInit f t0 (u t0) d (erkCoeffs m))) ∧
        (∀ mo s s', TimeInv t0 t1 s → FsalInv f (erkCoeffs m) s → InTube u t0 Λ B o.maxDt s →
          erkBody nd f t1 (effOpts o (erkCoeffs m)) oo (erkCoeffs m) mo s = .next s' → InTube u t0 Λ B o.maxDt s') ∧
        (∀ mo s, TimeInv t0 t1 s → FsalInv f (erkCoeffs m) s → InTube u t0 Λ B o.maxDt s → s.t < t1 →
          let a := attemptAt f t1 (effOpts o (erkCoeffs m)) (erkCoeffs m) mo s
          (∀ j, j < (erkCoeffs m : SolverCoeffs ℝ).ns → ‖a.Ks j‖ ≤ M) ∧
            ‖a.dt • ∑ i : Fin (erkCoeffs m : SolverCoeffs ℝ).ns,
              ((erkCoeffs m : SolverCoeffs ℝ).bw2 i - (erkCoeffs m : SolverCoeffs ℝ).bw i) • a.Ks i‖ ≤ M * a.dt ^ (q + 1)) := by
  obtain ⟨hex, hfs, -⟩ := shipped_facts hm
  have hA : ∀ i j : Fin (erkCoeffs m : SolverCoeffs ℝ).ns, i ≤ j → (erkCoeffs m : SolverCoeffs ℝ).a i j = 0 :=
    fun i j hij => hex i j i.isLt j.isLt hij
  obtain ⟨Λ, C, M, h0, hΛ, hC, hM, hh0, hstep⟩ := rkStep_error hp hf hu ho hA (shipped_row_sums hm)
  have hcu : ContinuousOn u (Icc t0 t1) := fun t ht => (hu t ht).continuousWithinAt
  obtain ⟨Ru, hRu, hub⟩ := solution_bounded hcu
  obtain ⟨M2, h2, hM2, hh2, hest⟩ := rkStep_estimate (f := f) (hf.of_le (by exact_mod_cast hqp))
    (fun t ht => ho t (ht.trans hqp)) ho2 hA (shipped_row_sums hm) (max (Ru + 1) (max |t0| |t1|))
  have hG0 : 0 ≤ Real.exp (Λ * (t1 - t0)) * ((t1 - t0) * C) := by
    have : 0 ≤ t1 - t0 := by linarith
    positivity
  set G := Real.exp (Λ * (t1 - t0)) * ((t1 - t0) * C) with hG
  refine ⟨max M M2, min (min h0 h2) (min 1 (1 / (G + 1))), le_max_of_le_left hM,
    lt_min (lt_min hh0 hh2) (lt_min one_pos (by positivity)), ?_⟩
  intro nd o oo had hmx hle
  have hle0 : o.maxDt ≤ h0 := hle.trans ((min_le_left _ _).trans (min_le_left _ _))
  have hle2 : o.maxDt ≤ h2 := hle.trans ((min_le_left _ _).trans (min_le_right _ _))
  have hsm : G * o.maxDt ^ p ≤ 1 := small_pow hp hG0 hmx.le (hle.trans (min_le_right _ _))
  set η := o.maxDt ^ p with hη
  have hη0 : 0 ≤ η := pow_nonneg hmx.le p
  have hCη : 0 ≤ C * η := mul_nonneg hC hη0
  obtain ⟨-, -, f3, -⟩ := effOpts_fields o (erkCoeffs m : SolverCoeffs ℝ)
  have hadE : (effOpts o (erkCoeffs m : SolverCoeffs ℝ)).adaptive = true :=
    effOpts_adaptive.mpr ⟨had, by simpa using hb2⟩
  have hQ1 : ∀ s, TimeInv t0 t1 s → InTube u t0 Λ (C * η) o.maxDt s → ‖s.y - u s.t‖ ≤ 1 := by
    intro s hT hq
    refine hq.2.trans (le_trans ?_ hsm)
    rw [hG, mul_assoc, mul_assoc]
    have h1 := hT.lo
    have h2 := hT.hi
    apply mul_le_mul (Real.exp_le_exp.mpr (mul_le_mul_of_nonneg_left (by linarith) hΛ)) _
      (mul_nonneg (by linarith) hCη) (Real.exp_pos _).le
    exact mul_le_mul_of_nonneg_right (by linarith) hCη
  have hat : ∀ mo s, TimeInv t0 t1 s → FsalInv f (erkCoeffs m) s → InTube u t0 Λ (C * η) o.maxDt s → s.t < t1 →
      let a := attemptAt f t1 (effOpts o (erkCoeffs m)) (erkCoeffs m) mo s
      (0 < a.dt ∧ a.dt ≤ o.maxDt) ∧
        IsRKStep (fun i j : Fin (erkCoeffs m : SolverCoeffs ℝ).ns => (erkCoeffs m : SolverCoeffs ℝ).a i j)
          (fun i => (erkCoeffs m : SolverCoeffs ℝ).bw i) (fun i => (erkCoeffs m : SolverCoeffs ℝ).cn i) f s.t a.dt s.y a.yn
          (fun i => a.Ks i) ∧
        ‖a.yn - u (s.t + a.dt)‖ ≤ (1 + Λ * a.dt) * ‖s.y - u s.t‖ + C * a.dt ^ (p + 1) ∧
        ∀ i : Fin (erkCoeffs m : SolverCoeffs ℝ).ns, ‖a.Ks i‖ ≤ M := by
    intro mo s hT hF hq hlt a
    have hd := attempt_dt (f := f) (t1 := t1) (o := effOpts o (erkCoeffs m)) (sc := erkCoeffs m) (mo := mo) s
    obtain ⟨c1, c2, c3⟩ := clip_facts hT hlt
    rw [← hd] at c1 c2 c3
    change 0 < a.dt at c1
    change s.t + a.dt ≤ t1 at c2
    change a.dt ≤ s.dt at c3
    have hst := attempt_isRKStep (t1 := t1) (o := effOpts o (erkCoeffs m)) (mo := mo) hfs hex hF
    have := hstep s.t a.dt s.y a.yn (fun i => a.Ks i) hT.lo c1.le ((c3.trans hq.1).trans hle0) c2 (hQ1 s hT hq) hst
    exact ⟨⟨c1, c3.trans hq.1⟩, hst, this.1, this.2⟩
  refine ⟨Λ, C * η, ?_, ?_, ?_⟩
  · intro d hd
    obtain ⟨i1, i2, -⟩ := erkInit_fields (f := f) (t0 := t0) (y0 := u t0) (sc := erkCoeffs m) d
    have i3 : (erkInit f t0 (u t0) d (erkCoeffs m)).y = u t0 := by
      unfold erkInit
      by_cases hf : (erkCoeffs m : SolverCoeffs ℝ).fsal = true <;> simp [hf, evalFun]
    refine ⟨?_, ?_⟩
    · rw [i2]; exact hd
    · rw [i1, i3]; simp
  · intro mo s s' hT hF hq hb
    have hc := bodyCase nd f t1 (effOpts o (erkCoeffs m)) oo (erkCoeffs m) mo s
    rw [hb] at hc
    obtain ⟨-, e2, -⟩ := attempt_adaptive (f := f) (t1 := t1) (sc := erkCoeffs m) (mo := mo) hadE s
    have hnd : (attemptAt f t1 (effOpts o (erkCoeffs m)) (erkCoeffs m) mo s).newDt ≤ o.maxDt := by
      rw [e2]
      have := newDt_le_maxDt (effOpts o (erkCoeffs m : SolverCoeffs ℝ)) mo (dt := (attemptAt f t1 (effOpts o (erkCoeffs m)) (erkCoeffs m) mo s).dt)
        (err := (attemptAt f t1 (effOpts o (erkCoeffs m)) (erkCoeffs m) mo s).err) (by rw [f3]; exact hmx)
      rwa [f3] at this
    cases hc with
    | accepted h hm' hb2' a hA hE hr' =>
      have hlt : s.t < t1 := by simpa using h
      obtain ⟨⟨c1, c2⟩, -, c3, -⟩ := hat mo s hT hF hq hlt
      rw [← hA] at c1 c2 c3 hnd
      refine ⟨hnd, ?_⟩
      change ‖a.yn - u (s.t + a.dt)‖ ≤ Real.exp (Λ * (s.t + a.dt - t0)) * ((s.t + a.dt - t0) * (C * η))
      have hlo := hT.lo
      have hB : 0 ≤ Real.exp (Λ * (s.t - t0)) * ((s.t - t0) * (C * η)) :=
        mul_nonneg (Real.exp_pos _).le (mul_nonneg (by linarith) hCη)
      have hexp : Real.exp (Λ * (s.t + a.dt - t0)) = Real.exp (Λ * a.dt) * Real.exp (Λ * (s.t - t0)) := by
        rw [← Real.exp_add]; congr 1; ring
      have h1d : 1 + Λ * a.dt ≤ Real.exp (Λ * a.dt) := by have := Real.add_one_le_exp (Λ * a.dt); linarith
      have hge1 : 1 ≤ Real.exp (Λ * (s.t + a.dt - t0)) := Real.one_le_exp (mul_nonneg hΛ (by linarith))
      have hCd : 0 ≤ C * a.dt * η := mul_nonneg (mul_nonneg hC c1.le) hη0
      calc ‖a.yn - u (s.t + a.dt)‖ ≤ (1 + Λ * a.dt) * ‖s.y - u s.t‖ + C * a.dt ^ (p + 1) := c3
        _ ≤ Real.exp (Λ * a.dt) * (Real.exp (Λ * (s.t - t0)) * ((s.t - t0) * (C * η))) +
            Real.exp (Λ * (s.t + a.dt - t0)) * (C * a.dt * η) := by
          apply add_le_add
          · exact mul_le_mul h1d hq.2 (norm_nonneg _) (Real.exp_pos _).le
          · exact (pow_step hC c1.le c2).trans (le_mul_of_one_le_left hCd hge1)
        _ = _ := by rw [hexp]; ring
    | rejected h hm' hb2' a hA hE had' hr' =>
      rw [← hA] at hnd
      exact ⟨hnd, hq.2⟩
  · intro mo s hT hF hq hlt
    obtain ⟨⟨c1, c2⟩, hst, -, c4⟩ := hat mo s hT hF hq hlt
    refine ⟨fun j hj => (c4 ⟨j, hj⟩).trans (le_max_left _ _), ?_⟩
    have ht0 := hT.lo
    have ht1 := hT.hi
    have hy := hQ1 s hT hq
    have hyb : ‖s.y‖ ≤ Ru + 1 := by
      have := norm_add_le (s.y - u s.t) (u s.t)
      rw [sub_add_cancel] at this
      linarith [hub s.t ⟨ht0, ht1⟩]
    have htb : |s.t| ≤ max |t0| |t1| := abs_le_max_abs_abs ht0 ht1
    refine (hest s.t _ s.y _ _ (htb.trans (le_max_right _ _)) (hyb.trans (le_max_left _ _)) c1.le (c2.trans hle2) hst).trans ?_
    exact mul_le_mul_of_nonneg_right (le_max_right _ _) (pow_nonneg c1.le _)

/-- (C74)  Termination of the adaptive integrator near a solution: with `max_dt` and the initial step small enough the stages stay
bounded. -/
theorem adaptive_run_tube {p q : ℕ} (hp : 1 ≤ p) (hf : ContDiff ℝ p fun q : ℝ × (Fin n → ℝ) => f q.1 q.2) (h01 : t0 < t1)
    (hu : ∀ t ∈ Icc t0 t1, HasDerivWithinAt u (f t (u t)) (Icc t0 t1) t) (hm : m ∈ erkImplemented)
    (ho : HasOrder (fun i j : Fin (erkCoeffs m : SolverCoeffs ℝ).ns => (erkCoeffs m : SolverCoeffs ℝ).a i j)
      (fun i => (erkCoeffs m : SolverCoeffs ℝ).bw i) p)
    (ho2 : HasOrder (fun i j : Fin (erkCoeffs m : SolverCoeffs ℝ).ns => (erkCoeffs m : SolverCoeffs ℝ).a i j)
      (fun i => (erkCoeffs m : SolverCoeffs ℝ).bw2 i) q) (hqp : q ≤ p) (hb2 : (erkCoeffs m : SolverCoeffs ℝ).b2 ≠ []) :
    ∃ h0 : ℝ, 0 < h0 ∧ ∀ (nd : Bool) (o : ErkOpts ℝ) (oo : OutOpts) (dt : ℝ), StreamOK oo → o.adaptive = true → 0 < o.absTol →
      0 ≤ o.relTol → 0 < o.maxDt → o.maxDt ≤ h0 → 0 < dt → dt ≤ o.maxDt →
      ∃ fuel out, erkOdeint nd f t0 t1 (u t0) o oo m dt fuel = some (.ret out) := by
  obtain ⟨M, h0, hM, hh0, key⟩ := tube hp hf h01 hu hm ho ho2 hqp hb2
  refine ⟨h0, hh0, ?_⟩
  intro nd o oo dt hs had ha hr hmx hle hdt hdle
  obtain ⟨Λ, B, k1, k2, k3⟩ := key nd o oo had hmx hle
  refine adaptive_run_of (M := M) (InTube u t0 Λ B o.maxDt) hm hs had hb2 ha hr hdt h01 ?_ k2 ?_
  · apply k1
    rw [clipDt_real]; exact (min_le_left _ _).trans hdle
  · intro mo s hT hF hq hlt j k hj
    exact (norm_le_pi_norm ((attemptAt f t1 (effOpts o (erkCoeffs m)) (erkCoeffs m) mo s).Ks j) k).trans ((k3 mo s hT hF hq hlt).1 j hj)

end
end Verif
