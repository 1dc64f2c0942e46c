import Verif.Prop.BConverge
import Verif.Prop.Interp
import Verif.Prop.IrkOrder
import Verif.Prop.IrkAffine

/-!
# Property C112: the dense output has the order of the stages
-/

set_option autoImplicit false

namespace Verif
open Spec Set

/-- the weights `project_b(theta)` integrate polynomials of degree below the number of stages, and are bounded on `[0,1]` -/
theorem project_moments {sc : SolverCoeffs ℝ} (h2 : 2 ≤ sc.c.length) (hc : sc.c.Nodup) (hb : sc.bInterp = collocMat sc.c)
    (hns : sc.ns = sc.c.length) : ∃ β : ℝ, 0 ≤ β ∧ ∀ (nd : Bool) (theta : ℝ), ∃ w : List ℝ, projectB nd theta sc = .ret w ∧ w.length = sc.ns ∧
      (∀ l < sc.ns, ∑ j : Fin sc.ns, w.getD j 0 * sc.cn j ^ l * ((l + 1 : ℕ) : ℝ) = theta ^ (l + 1)) ∧
      (0 ≤ theta ∧ theta ≤ 1 → ∀ j : Fin sc.ns, |w.getD j 0| ≤ β) := by
  have hcn : ∀ j : Fin sc.ns, sc.cn j = sc.c.getD j 0 := fun j => by simp [SolverCoeffs.cn]
  have hinj : Set.InjOn (fun j => sc.c.getD j 0) (Finset.range sc.c.length : Set ℕ) := by
    intro a ha b hb hab
    simp only [Finset.coe_range, Set.mem_Iio] at ha hb
    simp only [List.getD_eq_getElem _ _ ha, List.getD_eq_getElem _ _ hb] at hab
    exact (List.Nodup.getElem_inj_iff hc).mp hab
  have hbd : ∀ i, ∃ K : ℝ, ∀ x ∈ Icc (0 : ℝ) 1,
      ‖(Lagrange.basis (Finset.range sc.c.length) (fun j => sc.c.getD j 0) i).eval x‖ ≤ K := fun i =>
    isCompact_Icc.exists_bound_of_continuousOn (Polynomial.continuous _).continuousOn
  choose K hK using hbd
  have hK0 : ∀ i, 0 ≤ K i := fun i => (norm_nonneg _).trans (hK i 0 ⟨le_rfl, zero_le_one⟩)
  refine ⟨∑ i ∈ Finset.range sc.c.length, K i, Finset.sum_nonneg fun i _ => hK0 i, fun nd theta => ?_⟩
  obtain ⟨w, e, hl, hv⟩ := C46_lagrange nd sc.c h2 hc sc (by rw [hb]; exact (collocInterp_ret nd _).1) hns theta
  refine ⟨w, e, by omega, ?_, ?_⟩
  · intro l hlt
    have hlt' : l < sc.c.length := by omega
    have hX := Lagrange.eq_interpolate_of_eval_eq (s := Finset.range sc.c.length) (v := fun j => sc.c.getD j 0)
      (fun j => sc.c.getD j 0 ^ l) (f := Polynomial.X ^ l) hinj (by
        rw [Polynomial.degree_X_pow, Finset.card_range]; exact_mod_cast hlt') (by intro i _; simp)
    have hint : ∫ x in (0 : ℝ)..theta, x ^ l = ∑ j ∈ Finset.range sc.c.length, sc.c.getD j 0 ^ l * w.getD j 0 := by
      have : ∀ x : ℝ, x ^ l = ∑ j ∈ Finset.range sc.c.length, sc.c.getD j 0 ^ l *
          (Lagrange.basis (Finset.range sc.c.length) (fun j => sc.c.getD j 0) j).eval x := by
        intro x
        have := congrArg (Polynomial.eval x) hX
        rw [Lagrange.interpolate_apply, Polynomial.eval_finsetSum] at this
        simpa using this
      rw [intervalIntegral.integral_congr (g := fun x => ∑ j ∈ Finset.range sc.c.length, sc.c.getD j 0 ^ l *
          (Lagrange.basis (Finset.range sc.c.length) (fun j => sc.c.getD j 0) j).eval x) (fun x _ => this x),
        intervalIntegral.integral_finsetSum]
      · refine Finset.sum_congr rfl fun j hj => ?_
        rw [intervalIntegral.integral_const_mul, hv j (Finset.mem_range.mp hj)]
      · intro j _
        exact Continuous.intervalIntegrable (by fun_prop) _ _
    rw [integral_pow, zero_pow (by omega), sub_zero] at hint
    have hl1 : ((l : ℝ) + 1) ≠ 0 := by positivity
    have e2 : ∑ j : Fin sc.ns, w.getD j 0 * sc.cn j ^ l * ((l + 1 : ℕ) : ℝ) =
        (∑ j ∈ Finset.range sc.c.length, sc.c.getD j 0 ^ l * w.getD j 0) * ((l : ℝ) + 1) := by
      rw [← hns, ← Fin.sum_univ_eq_sum_range (fun j => sc.c.getD j 0 ^ l * w.getD j 0), Finset.sum_mul]
      refine Finset.sum_congr rfl fun j _ => ?_
      rw [hcn]
      push_cast
      ring
    rw [e2, ← hint]
    field_simp
  · rintro ⟨h0, h1⟩ j
    have hj : (j : ℕ) < sc.c.length := by have := j.2; omega
    rw [hv j hj]
    have := intervalIntegral.norm_integral_le_of_norm_le_const (a := 0) (b := theta) (C := K j)
      (f := fun x => (Lagrange.basis (Finset.range sc.c.length) (fun j => sc.c.getD j 0) j).eval x) (fun x hx => by
        rw [uIoc_of_le h0] at hx
        exact hK j x ⟨hx.1.le, hx.2.trans h1⟩)
    rw [Real.norm_eq_abs, sub_zero, abs_of_nonneg h0] at this
    refine this.trans ((mul_le_of_le_one_right (hK0 _) h1).trans ?_)
    exact Finset.single_le_sum (f := K) (fun i _ => hK0 i) (Finset.mem_range.mpr hj)

theorem stageOrder_dense : ∀ q ∈ ([(210, 2), (211, 3), (232, 4)] : List (ℤ × ℕ)),
    stageOrderOK (irkCoeffs q.1 : SolverCoeffs (QS (rootOf q.1))) q.2 = true := by
  decide +kernel

theorem nodes_distinct : ∀ m ∈ ([210, 211, 232, 212, 213] : List ℤ), (irkCoeffs m : SolverCoeffs (QS (rootOf m))).c.Pairwise
    (fun x y => (x - y).re * (x - y).re - (rootOf m : ℚ) * ((x - y).im * (x - y).im) ≠ 0) := by
  decide +kernel

section
variable {F : Type} [Add F] [Sub F] [Mul F] [Div F] [Neg F] [Scalar F]
theorem bInterp_32 : (radauIIA32 : SolverCoeffs F).bInterp = collocMat (radauIIA32 : SolverCoeffs F).c := rfl
theorem bInterp_53 : (radauIIA53 : SolverCoeffs F).bInterp = collocMat (radauIIA53 : SolverCoeffs F).c := rfl
theorem bInterp_85 : (lobattoIIIC85 : SolverCoeffs F).bInterp = collocMat (lobattoIIIC85 : SolverCoeffs F).c := by
  simp only [lobattoIIIC85]
theorem bInterp_95 : (radauIIA95 : SolverCoeffs F).bInterp = collocMat (radauIIA95 : SolverCoeffs F).c := by
  simp only [radauIIA95]
theorem bInterp_137 : (radauIIA137 : SolverCoeffs F).bInterp = collocMat (radauIIA137 : SolverCoeffs F).c := by
  simp only [radauIIA137]
end

theorem dense_nodes {m : ℤ} (hm : m ∈ ([210, 211, 232, 212, 213] : List ℤ)) :
    2 ≤ (irkCoeffs m : SolverCoeffs ℝ).c.length ∧ (irkCoeffs m : SolverCoeffs ℝ).c.Nodup ∧
    (irkCoeffs m : SolverCoeffs ℝ).bInterp = collocMat (irkCoeffs m : SolverCoeffs ℝ).c ∧
    (irkCoeffs m : SolverCoeffs ℝ).ns = (irkCoeffs m : SolverCoeffs ℝ).c.length := by
  have hd := nodes_distinct m hm
  have hI : m ∈ irkImplemented := by
    have : ∀ m ∈ ([210, 211, 232, 212, 213] : List ℤ), m ∈ irkImplemented := by decide
    exact this m hm
  have hnd : (irkCoeffs m : SolverCoeffs ℝ).c.Nodup := by
    rw [(img_shipped hI).c, List.Nodup, List.pairwise_map]
    refine hd.imp ?_
    intro x y hxy he
    exact ev_ne_zero hxy (by rw [map_sub, he, sub_self])
  simp only [List.mem_cons, List.not_mem_nil, or_false] at hm
  rcases hm with rfl | rfl | rfl | rfl | rfl
  · have e : (irkCoeffs 210 : SolverCoeffs ℝ) = radauIIA32 := by simp [irkCoeffs]
    rw [e] at hnd ⊢
    exact ⟨by simp [radauIIA32], hnd, bInterp_32, by simp [radauIIA32, SolverCoeffs.ns]⟩
  · have e : (irkCoeffs 211 : SolverCoeffs ℝ) = radauIIA53 := by simp [irkCoeffs]
    rw [e] at hnd ⊢
    exact ⟨by simp [radauIIA53], hnd, bInterp_53, by simp [radauIIA53, SolverCoeffs.ns]⟩
  · have e : (irkCoeffs 232 : SolverCoeffs ℝ) = lobattoIIIC85 := by simp [irkCoeffs]
    rw [e] at hnd ⊢
    exact ⟨by simp [lobattoIIIC85], hnd, bInterp_85, by simp [lobattoIIIC85, SolverCoeffs.ns]⟩
  · have e : (irkCoeffs 212 : SolverCoeffs ℝ) = radauIIA95 := by simp [irkCoeffs]
    rw [e] at hnd ⊢
    exact ⟨by simp [radauIIA95], hnd, bInterp_95, by simp [radauIIA95, SolverCoeffs.ns]⟩
  · have e : (irkCoeffs 213 : SolverCoeffs ℝ) = radauIIA137 := by simp [irkCoeffs]
    rw [e] at hnd ⊢
    exact ⟨by simp [radauIIA137], hnd, bInterp_137, by simp [radauIIA137, SolverCoeffs.ns]⟩

/-- **C112, weights.**  For every method that has dense output (the decimal ones included) and every `theta`, `project_b(theta)` returns one
weight per stage, and the weights integrate every polynomial of degree below the number of stages from 0 to `theta`. -/
theorem C112_weights {m : ℤ} (hm : m ∈ ([210, 211, 232, 212, 213] : List ℤ)) (nd : Bool) (theta : ℝ) : ∃ w : List ℝ,
    projectB nd theta (irkCoeffs m) = .ret w ∧ w.length = (irkCoeffs m : SolverCoeffs ℝ).b.length ∧
    ∀ P : Polynomial ℝ, P.natDegree < (irkCoeffs m : SolverCoeffs ℝ).b.length →
      ∑ j ∈ Finset.range (irkCoeffs m : SolverCoeffs ℝ).b.length, w.getD j 0 * P.eval ((irkCoeffs m : SolverCoeffs ℝ).c.getD j 0) =
        ∫ x in (0 : ℝ)..theta, P.eval x := by
  obtain ⟨h1, h2, h3, h4⟩ := dense_nodes hm
  obtain ⟨_, _, hw⟩ := project_moments h1 h2 h3 h4
  obtain ⟨w, e, hl, hmo, -⟩ := hw nd theta
  refine ⟨w, e, hl, fun P hP => ?_⟩
  set N := (irkCoeffs m : SolverCoeffs ℝ).b.length with hN
  have hev : ∀ x : ℝ, P.eval x = ∑ k ∈ Finset.range N, P.coeff k * x ^ k := fun x => Polynomial.eval_eq_sum_range' hP x
  have hint : ∫ x in (0 : ℝ)..theta, P.eval x = ∑ k ∈ Finset.range N, P.coeff k * (theta ^ (k + 1) / (k + 1)) := by
    simp only [hev]
    rw [intervalIntegral.integral_finsetSum]
    · refine Finset.sum_congr rfl fun k _ => ?_
      rw [intervalIntegral.integral_const_mul, integral_pow, zero_pow (by omega)]
      simp
    · intro k _
      exact Continuous.intervalIntegrable (by fun_prop) _ _
  rw [hint]
  simp only [hev, Finset.mul_sum]
  rw [Finset.sum_comm]
  refine Finset.sum_congr rfl fun k hk => ?_
  have := hmo k (Finset.mem_range.mp hk)
  have hk1 : ((k : ℝ) + 1) ≠ 0 := by positivity
  rw [← this, Finset.sum_div, Finset.mul_sum, ← Fin.sum_univ_eq_sum_range
    (fun j => w.getD j 0 * (P.coeff k * (irkCoeffs m : SolverCoeffs ℝ).c.getD j 0 ^ k))]
  refine Finset.sum_congr rfl fun j _ => ?_
  have : (irkCoeffs m : SolverCoeffs ℝ).cn j = (irkCoeffs m : SolverCoeffs ℝ).c.getD j 0 := by simp [SolverCoeffs.cn]
  rw [this]
  push_cast
  field_simp

/-- **C112.**  RADAU_IIA_32 (`p = 2`), RADAU_IIA_53 (`p = 3`), LOBATTO_IIIC_85 (`p = 4`): there is a constant `C` that depends on the method
only, such that for every right-hand side with Lipschitz constant `L` and every solution `u` with `p+1` derivatives, the last bounded by
`M`, the dense output `y + h Σ b_j(theta) k_j` of a Runge–Kutta step of length `h ≤ 1/(C L)` from `y`, with the weights
`project_b(theta)`, is a solution value up to `C M h^(p+1)` and `1 + C L h` times the error of `y`, uniformly for `0 ≤ theta ≤ 1`. -/
theorem C112_order {m : ℤ} {p : ℕ} (hm : (m, p) ∈ ([(210, 2), (211, 3), (232, 4)] : List (ℤ × ℕ))) : ∃ C : ℝ, 0 ≤ C ∧
    ∀ (n : ℕ) (f : ℝ → Vec ℝ n → Vec ℝ n) (t0 t1 L M t h : ℝ) (u : ℝ → Vec ℝ n) (v : ℕ → ℝ → Vec ℝ n) (y y' : Vec ℝ n)
    (k : Fin (irkCoeffs m : SolverCoeffs ℝ).ns → Vec ℝ n), Derivatives t0 t1 p u v → (∀ t ∈ Icc t0 t1, v 1 t = f t (u t)) →
    (∀ t ∈ Icc t0 t1, eucl (v (p + 1) t) ≤ M) → 0 ≤ L → LipschitzE f L → t0 ≤ t → 0 ≤ h → t + h ≤ t1 → C * (L * h) ≤ 1 →
    IsRKStep (fun i j : Fin (irkCoeffs m : SolverCoeffs ℝ).ns => (irkCoeffs m : SolverCoeffs ℝ).a i j)
      (fun i => (irkCoeffs m : SolverCoeffs ℝ).bw i) (fun i => (irkCoeffs m : SolverCoeffs ℝ).cn i) f t h y y' k →
    ∀ (nd : Bool) (theta : ℝ), 0 ≤ theta → theta ≤ 1 → ∃ w, projectB nd theta (irkCoeffs m) = .ret w ∧
      eucl (y + h • ∑ j : Fin (irkCoeffs m : SolverCoeffs ℝ).ns, w.getD j 0 • k j - u (t + theta * h)) ≤
        (1 + C * (L * h)) * eucl (y - u t) + C * (M * h ^ (p + 1)) := by
  have hm1 : ∀ q ∈ ([(210, 2), (211, 3), (232, 4)] : List (ℤ × ℕ)), q.1 ∈ ([210, 211, 232, 212, 213] : List ℤ) ∧ q.1 ∈ irkImplemented ∧
      1 ≤ q.2 ∧ q.2 ≤ (irkCoeffs q.1 : SolverCoeffs (QS (rootOf q.1))).b.length := by decide +kernel
  obtain ⟨i1, i2, hp, hpb⟩ := hm1 _ hm
  simp only at i1 i2 hp hpb
  have hso := stageOrder_dense _ hm
  simp only at hso
  have I := img_shipped i2
  have hps : p ≤ (irkCoeffs m : SolverCoeffs ℝ).ns := by rw [I.ns]; exact hpb
  obtain ⟨d1, d2, d3, d4⟩ := dense_nodes i1
  obtain ⟨β, hβ, hw⟩ := project_moments d1 d2 d3 d4
  generalize (irkCoeffs m : SolverCoeffs ℝ) = sc at *
  obtain ⟨S, hSd⟩ : ∃ S, S = 1 + ∑ i : Fin sc.ns, ∑ j : Fin sc.ns, |sc.a i j| := ⟨_, rfl⟩
  have hS1 : 1 ≤ S := by
    rw [hSd]
    have : 0 ≤ ∑ i : Fin sc.ns, ∑ j : Fin sc.ns, |sc.a i j| := Finset.sum_nonneg fun _ _ => Finset.sum_nonneg fun _ _ => abs_nonneg _
    linarith
  have hrow : ∀ i : Fin sc.ns, 1 + ∑ j : Fin sc.ns, |sc.a i j| ≤ S := fun i => by
    have := Finset.single_le_sum (f := fun i : Fin sc.ns => ∑ j : Fin sc.ns, |sc.a i j|)
      (fun _ _ => Finset.sum_nonneg fun _ _ => abs_nonneg _) (Finset.mem_univ i)
    linarith
  obtain ⟨B, hBd⟩ : ∃ B, B = (sc.ns : ℝ) * β := ⟨_, rfl⟩
  have hB : 0 ≤ B := by rw [hBd]; positivity
  refine ⟨2 * S + 2 * B + 2 * B * S + 1 + B, by positivity, ?_⟩
  intro n f t0 t1 L M t h u v y y' k hv hsol hb hL hLip ht hh hth hsmall hk nd theta h0 h1
  have hM : 0 ≤ M := (eucl_nonneg _).trans (hb t ⟨ht, by linarith⟩)
  obtain ⟨w, e, hwl, hmo, hwb⟩ := hw nd theta
  refine ⟨w, e, ?_⟩
  have hwb := hwb ⟨h0, h1⟩
  have hLh : 0 ≤ L * h := mul_nonneg hL hh
  have hS2 : 2 * S * (L * h) ≤ 1 := le_trans (mul_le_mul_of_nonneg_right (by nlinarith) hLh) hsmall
  have hLh1 : L * h ≤ 1 := le_trans (by nlinarith) hS2
  set X := M * h ^ (p + 1) with hX
  have hX0 : 0 ≤ X := by positivity
  set ε := eucl (y - u t) with hε
  have hε0 : 0 ≤ ε := eucl_nonneg _
  have hnode : ∀ j : Fin sc.ns, v 1 (t + sc.cn j * h) = f (t + sc.cn j * h) (u (t + sc.cn j * h)) := fun j => by
    refine hsol _ ⟨?_, ?_⟩
    · linarith [mul_nonneg (I.nodes hso j).1 hh]
    · linarith [mul_le_of_le_one_left hh (I.nodes hso j).2]
  -- errors of the stages
  set G : Fin sc.ns → Vec ℝ n := fun i => y + h • ∑ j : Fin sc.ns, sc.a i j • k j with hG
  have hkG : ∀ j, k j = f (t + sc.cn j * h) (G j) := hk.1
  set E : Fin sc.ns → ℝ := fun i => eucl (G i - u (t + sc.cn i * h)) with hE
  have hE0 : ∀ i, 0 ≤ E i := fun i => eucl_nonneg _
  have hkd : ∀ j, eucl (k j - v 1 (t + sc.cn j * h)) ≤ L * E j := fun j => by
    rw [hnode, hkG]
    exact hLip _ _ _
  have hEi : ∀ i, E i ≤ ε + h * ∑ j : Fin sc.ns, |sc.a i j| * (L * E j) + S * X := by
    intro i
    have q := quadrature_bound (w := fun j => sc.a i j) hp hM hv hb (I.nodes hso i) (I.nodes hso) (fun l hl => I.stageOrder hso i hl) ht hh hth
    have e1 : G i - u (t + sc.cn i * h) = (y - u t) + h • ∑ j : Fin sc.ns, sc.a i j • (k j - v 1 (t + sc.cn j * h)) -
        (u (t + sc.cn i * h) - (u t + h • ∑ j : Fin sc.ns, sc.a i j • v 1 (t + sc.cn j * h))) := by
      simp only [hG, smul_sub, Finset.sum_sub_distrib]
      abel
    rw [hE]
    simp only
    rw [e1]
    refine (eucl_sub _ _).trans (add_le_add ((eucl_add _ _).trans (add_le_add_right ?_ _)) (q.trans (mul_le_mul_of_nonneg_right (hrow i) hX0)))
    rw [eucl_smul, abs_of_nonneg hh]
    refine mul_le_mul_of_nonneg_left ((eucl_sum _ _).trans (Finset.sum_le_sum fun j _ => ?_)) hh
    rw [eucl_smul]
    exact mul_le_mul_of_nonneg_left (hkd j) (abs_nonneg _)
  have hEb : ∀ i, E i ≤ 2 * (ε + S * X) := by
    intro i0
    obtain ⟨i, -, hi⟩ := Finset.exists_max_image Finset.univ E ⟨i0, Finset.mem_univ _⟩
    have h2 : h * ∑ j : Fin sc.ns, |sc.a i j| * (L * E j) ≤ 1 / 2 * E i := by
      calc h * ∑ j : Fin sc.ns, |sc.a i j| * (L * E j) ≤ h * ∑ j : Fin sc.ns, |sc.a i j| * (L * E i) := by
            refine mul_le_mul_of_nonneg_left (Finset.sum_le_sum fun j _ => mul_le_mul_of_nonneg_left
              (mul_le_mul_of_nonneg_left (hi j (Finset.mem_univ _)) hL) (abs_nonneg _)) hh
        _ = (∑ j : Fin sc.ns, |sc.a i j|) * (L * h) * E i := by rw [← Finset.sum_mul]; ring
        _ ≤ 1 / 2 * E i := by
            refine mul_le_mul_of_nonneg_right ?_ (hE0 i)
            have : (∑ j : Fin sc.ns, |sc.a i j|) * (L * h) ≤ S * (L * h) := mul_le_mul_of_nonneg_right (by linarith [hrow i]) hLh
            linarith
    have h3 := hEi i
    exact (hi i0 (Finset.mem_univ _)).trans (by linarith)
  -- the dense output
  have q := quadrature_bound (w := fun j : Fin sc.ns => w.getD j 0) hp hM hv hb ⟨h0, h1⟩ (I.nodes hso) (fun l hl => hmo l (by omega)) ht hh hth
  have hsw : ∑ j : Fin sc.ns, |w.getD j 0| ≤ B := by
    refine (Finset.sum_le_sum fun j _ => hwb j).trans (le_of_eq ?_)
    rw [hBd]; simp
  have e1 : y + h • ∑ j : Fin sc.ns, w.getD j 0 • k j - u (t + theta * h) =
      (y - u t) + h • ∑ j : Fin sc.ns, w.getD j 0 • (k j - v 1 (t + sc.cn j * h)) -
        (u (t + theta * h) - (u t + h • ∑ j : Fin sc.ns, w.getD j 0 • v 1 (t + sc.cn j * h))) := by
    simp only [smul_sub, Finset.sum_sub_distrib]
    abel
  rw [e1]
  have b1 : eucl (h • ∑ j : Fin sc.ns, w.getD j 0 • (k j - v 1 (t + sc.cn j * h))) ≤ B * (L * h) * (2 * (ε + S * X)) := by
    rw [eucl_smul, abs_of_nonneg hh]
    calc h * eucl (∑ j : Fin sc.ns, w.getD j 0 • (k j - v 1 (t + sc.cn j * h)))
        ≤ h * ∑ j : Fin sc.ns, |w.getD j 0| * (L * (2 * (ε + S * X))) := by
          refine mul_le_mul_of_nonneg_left ((eucl_sum _ _).trans (Finset.sum_le_sum fun j _ => ?_)) hh
          rw [eucl_smul]
          exact mul_le_mul_of_nonneg_left ((hkd j).trans (mul_le_mul_of_nonneg_left (hEb j) hL)) (abs_nonneg _)
      _ = (∑ j : Fin sc.ns, |w.getD j 0|) * ((L * h) * (2 * (ε + S * X))) := by rw [← Finset.sum_mul]; ring
      _ ≤ B * ((L * h) * (2 * (ε + S * X))) := mul_le_mul_of_nonneg_right hsw (by positivity)
      _ = _ := by ring
  have b2 : (1 + ∑ j : Fin sc.ns, |w.getD j 0|) * X ≤ (1 + B) * X := mul_le_mul_of_nonneg_right (by linarith) hX0
  refine (eucl_sub _ _).trans ((add_le_add ((eucl_add _ _).trans (add_le_add_right b1 _)) (q.trans b2)).trans ?_)
  have c1 : B * (L * h) * (2 * (S * X)) ≤ 2 * B * S * X := by
    have := mul_le_mul_of_nonneg_right hLh1 (show 0 ≤ 2 * B * S * X by positivity)
    nlinarith
  have c2 : 0 ≤ (2 * S + 2 * B * S + 1 + B) * (L * h) * ε := by positivity
  have c3 : 0 ≤ (2 * S + 2 * B) * X := by positivity
  nlinarith

/-- **C112 along the runs of the integrator.**  For right-hand sides that are affine in `y`, between any two consecutive stored samples whose
distance is at most `1/(C L)`: the later sample is a Runge–Kutta step from the earlier one, and the dense output formed with the stages of
that step satisfies the bound of `C112_order` for every `theta` between 0 and 1. -/
theorem C112_run {m : ℤ} {p : ℕ} (hm : (m, p) ∈ ([(210, 2), (211, 3), (232, 4)] : List (ℤ × ℕ))) : ∃ C : ℝ, 0 ≤ C ∧
    ∀ (n : ℕ) (fn : OdeFun ℝ n) (t0 t1 T dt L M : ℝ) (u : ℝ → Vec ℝ n) (v : ℕ → ℝ → Vec ℝ n) (y0 : Vec ℝ n)
    (nd : Bool) (la : LinAlg ℝ) (o : IrkOpts ℝ) (oo : OutOpts) (fuel : ℕ)
    (out : IrkOutput ℝ ((irkCoeffs m : SolverCoeffs ℝ).ns * n) n), la.Exact → la.Sound → IsAffine fn →
    irkOdeint nd la fn t0 t1 y0 o oo m dt fuel = some (.ret out) → oo.storeInVectors = true → oo.interval.toNat = 1 →
    Derivatives t0 T p u v → (∀ t ∈ Icc t0 T, v 1 t = fn.fn t (u t)) → (∀ t ∈ Icc t0 T, eucl (v (p + 1) t) ≤ M) → 0 ≤ L →
    LipschitzE fn.fn L → ∀ (i : ℕ) (t t' : ℝ) (y y' : Vec ℝ n), out.tVals[i]? = some t → out.tVals[i + 1]? = some t' →
    out.yVals[i]? = some y → out.yVals[i + 1]? = some y' → t' ≤ T → C * (L * (t' - t)) ≤ 1 →
    ∃ k : Fin (irkCoeffs m : SolverCoeffs ℝ).ns → Vec ℝ n,
      IsRKStep (fun i j : Fin (irkCoeffs m : SolverCoeffs ℝ).ns => (irkCoeffs m : SolverCoeffs ℝ).a i j)
        (fun i => (irkCoeffs m : SolverCoeffs ℝ).bw i) (fun i => (irkCoeffs m : SolverCoeffs ℝ).cn i) fn.fn t (t' - t) y y' k ∧
      ∀ (nd : Bool) (theta : ℝ), 0 ≤ theta → theta ≤ 1 → ∃ w, projectB nd theta (irkCoeffs m) = .ret w ∧
        eucl (y + (t' - t) • ∑ j : Fin (irkCoeffs m : SolverCoeffs ℝ).ns, w.getD j 0 • k j - u (t + theta * (t' - t))) ≤
          (1 + C * (L * (t' - t))) * eucl (y - u t) + C * (M * (t' - t) ^ (p + 1)) := by
  obtain ⟨C, hC, key⟩ := C112_order hm
  refine ⟨C, hC, ?_⟩
  intro n fn t0 t1 T dt L M u v y0 nd la o oo fuel out hla hs ha h hst hint hv hsol hb hL hLip i t t' y y' e1 e2 e3 e4 hT hsm
  obtain ⟨o', -, -, hg⟩ := irkOdeint_ret h
  obtain ⟨acc, hhd, hy, ht, -, hch⟩ := C37_affine hla hs ha hg
  rw [if_pos hst, hint, everyNth_one] at hy ht
  rw [ht, List.getElem?_map, Option.map_eq_some_iff] at e1 e2
  rw [hy, List.getElem?_map, Option.map_eq_some_iff] at e3 e4
  obtain ⟨a, a1, rfl⟩ := e1
  obtain ⟨b, b1, rfl⟩ := e2
  rw [a1] at e3
  rw [b1] at e4
  obtain ⟨_, ⟨rfl⟩, rfl⟩ := e3
  obtain ⟨_, ⟨rfl⟩, rfl⟩ := e4
  have hch' := List.isChain_iff_getElem.mp hch
  obtain ⟨hi, rfl⟩ := List.getElem?_eq_some_iff.mp b1
  obtain ⟨hi', rfl⟩ := List.getElem?_eq_some_iff.mp a1
  obtain ⟨hlt, k, hk⟩ := hch' i hi
  have hmono : ∀ j (hj : j < acc.length), t0 ≤ acc[j].t := by
    intro j
    induction j with
    | zero =>
      intro hj
      rw [List.head?_eq_getElem?, List.getElem?_eq_getElem hj, Option.some.injEq] at hhd
      rw [hhd]
    | succ j ih =>
      intro hj
      exact (ih (by omega)).trans (hch' j hj).1.le
  refine ⟨k, hk, fun nd' theta h0 h1 => ?_⟩
  exact key n fn.fn t0 T L M _ _ u v _ _ k hv hsol hb hL hLip (hmono i hi') (by linarith) (by linarith) hsm hk nd' theta h0 h1

/-- **C112, the exponent.**  For `y' = t²`, `y(0) = 0` the dense output of RADAU_IIA_32 in the middle of the first step is 0 for every
step size, while the solution is `h³/24` there: the third order of the step itself is not reached in between. -/
theorem C112_exponent (nd : Bool) (h : ℝ) (y' : Vec ℝ 1) (k : Fin (irkCoeffs 210 : SolverCoeffs ℝ).ns → Vec ℝ 1)
    (hk : IsRKStep (fun i j : Fin (irkCoeffs 210 : SolverCoeffs ℝ).ns => (irkCoeffs 210 : SolverCoeffs ℝ).a i j)
      (fun i => (irkCoeffs 210 : SolverCoeffs ℝ).bw i) (fun i => (irkCoeffs 210 : SolverCoeffs ℝ).cn i) (fun t _ _ => t ^ 2) 0 h
      (fun _ => 0) y' k) : y' = (fun _ => h ^ 3 / 3) ∧
    ∃ w, projectB nd (1 / 2 : ℝ) (irkCoeffs 210) = .ret w ∧
      (fun _ => 0) + h • ∑ j : Fin (irkCoeffs 210 : SolverCoeffs ℝ).ns, w.getD j 0 • k j = (fun _ => (h / 2) ^ 3 / 3 - h ^ 3 / 24) := by
  obtain ⟨w, e, hl, hw⟩ := C112_weights (m := 210) (by decide) nd (1 / 2)
  have e210 : (irkCoeffs 210 : SolverCoeffs ℝ) = radauIIA32 := by simp [irkCoeffs]
  have hns : (irkCoeffs 210 : SolverCoeffs ℝ).b.length = 2 := by simp [e210, radauIIA32]
  have c0 : (irkCoeffs 210 : SolverCoeffs ℝ).cn 0 = 1 / 3 := by simp [e210, SolverCoeffs.cn, radauIIA32, q]
  have c1 : (irkCoeffs 210 : SolverCoeffs ℝ).cn 1 = 1 := by simp [e210, SolverCoeffs.cn, radauIIA32]
  have b0 : (irkCoeffs 210 : SolverCoeffs ℝ).bw 0 = 3 / 4 := by simp [e210, SolverCoeffs.bw, radauIIA32, q]
  have b1 : (irkCoeffs 210 : SolverCoeffs ℝ).bw 1 = 1 / 4 := by simp [e210, SolverCoeffs.bw, radauIIA32, q]
  have d0 : (irkCoeffs 210 : SolverCoeffs ℝ).c.getD 0 0 = 1 / 3 := by simp [e210, radauIIA32, q]
  have d1 : (irkCoeffs 210 : SolverCoeffs ℝ).c.getD 1 0 = 1 := by simp [e210, radauIIA32]
  have w0 := hw 1 (by rw [hns]; simp)
  have w1 := hw Polynomial.X (by rw [hns]; simp)
  rw [hns, Finset.sum_range_succ, Finset.sum_range_one] at w0 w1
  rw [d0, d1] at w1
  simp only [Polynomial.eval_one, mul_one, integral_one, Polynomial.eval_X, integral_id] at w0 w1
  have hk1 : ∀ j, k j = fun _ => (0 + (irkCoeffs 210 : SolverCoeffs ℝ).cn j * h) ^ 2 := hk.1
  have hsum : ∀ g : ℕ → ℝ, ∀ x : Fin 1, (∑ j : Fin (irkCoeffs 210 : SolverCoeffs ℝ).ns, g j • k j) x =
      g 0 * (1 / 3 * h) ^ 2 + g 1 * h ^ 2 := by
    intro g x
    rw [Finset.sum_apply]
    simp only [hk1, Pi.smul_apply, smul_eq_mul]
    rw [Fin.sum_univ_eq_sum_range (fun j => g j * (0 + (irkCoeffs 210 : SolverCoeffs ℝ).cn j * h) ^ 2), SolverCoeffs.ns, hns,
      Finset.sum_range_succ, Finset.sum_range_one, c0, c1]
    ring
  refine ⟨?_, w, e, ?_⟩
  · rw [hk.2]
    funext x
    have := hsum (fun j => (irkCoeffs 210 : SolverCoeffs ℝ).bw j) x
    simp only [b0, b1] at this
    rw [Pi.add_apply, Pi.smul_apply, smul_eq_mul, this]
    ring
  · funext x
    rw [Pi.add_apply, Pi.smul_apply, smul_eq_mul, hsum (fun j => w.getD j 0) x]
    have g1 : w.getD 1 0 = -1 / 16 := by linarith
    have g0 : w.getD 0 0 = 9 / 16 := by linarith
    rw [g0, g1]
    ring

/-! ### the hypotheses are satisfiable -/

/-- `C112_run`: the equation of Prothero and Robinson with a moderate coefficient and LOBATTO_IIIC_85 -/
example : ∃ C : ℝ, 0 ≤ C ∧ ∀ (l : ℝ) (nd : Bool) (la : LinAlg ℝ) (o : IrkOpts ℝ) (dt : ℝ) (fuel : ℕ) (y0 : Vec ℝ 1)
    (out : IrkOutput ℝ ((irkCoeffs 232 : SolverCoeffs ℝ).ns * 1) 1), l ≤ 0 → la.Exact → la.Sound →
    irkOdeint nd la (prothero l) 0 10 y0 o OutOpts.dflt 232 dt fuel = some (.ret out) →
    ∀ (i : ℕ) (t t' : ℝ) (y y' : Vec ℝ 1), out.tVals[i]? = some t → out.tVals[i + 1]? = some t' →
    out.yVals[i]? = some y → out.yVals[i + 1]? = some y' → t' ≤ 10 → C * (|l| * (t' - t)) ≤ 1 →
    ∃ k : Fin (irkCoeffs 232 : SolverCoeffs ℝ).ns → Vec ℝ 1, ∀ theta : ℝ, 0 ≤ theta → theta ≤ 1 →
      ∃ w, projectB false theta (irkCoeffs 232) = .ret w ∧
        eucl (y + (t' - t) • ∑ j : Fin (irkCoeffs 232 : SolverCoeffs ℝ).ns, w.getD j 0 • k j -
          fun _ => Real.cos (t + theta * (t' - t))) ≤
          (1 + C * (|l| * (t' - t))) * eucl (y - fun _ => Real.cos t) + C * (1 * (t' - t) ^ 5) := by
  obtain ⟨C, hC, key⟩ := C112_run (m := 232) (p := 4) (by decide)
  refine ⟨C, hC, fun l nd la o dt fuel y0 out hl a1 a2 a3 i t t' y y' e1 e2 e3 e4 hT hs => ?_⟩
  obtain ⟨-, f2, f3, f4⟩ := prothero_facts hl 0 10 4
  obtain ⟨k, -, hk⟩ := key 1 (prothero l) 0 10 10 dt |l| 1 (fun t _ => Real.cos t) cosDeriv y0 nd la o OutOpts.dflt fuel out a1 a2
    ⟨Matrix.of fun _ _ => l, fun t _ => -l * Real.cos t - Real.sin t, fun t y => by
      funext k
      have : k = 0 := Subsingleton.elim _ _
      subst this
      simp only [prothero, Pi.add_apply, Matrix.mulVec, dotProduct, Matrix.of_apply, Fin.sum_univ_one]
      ring, fun _ _ _ _ => rfl⟩ a3 rfl rfl f2 f3 f4 (abs_nonneg l) (fun t y z => by
      rw [eucl_one, eucl_one, ← abs_mul]
      refine le_of_eq (congrArg _ ?_)
      simp only [prothero]
      ring) i t t' y y' e1 e2 e3 e4 hT hs
  exact ⟨k, fun theta h0 h1 => hk false theta h0 h1⟩

/-- `C112_exponent`: the step exists -/
example : ∃ y' k, IsRKStep (fun i j : Fin (irkCoeffs 210 : SolverCoeffs ℝ).ns => (irkCoeffs 210 : SolverCoeffs ℝ).a i j)
    (fun i => (irkCoeffs 210 : SolverCoeffs ℝ).bw i) (fun i => (irkCoeffs 210 : SolverCoeffs ℝ).cn i)
    (fun t (_ : Vec ℝ 1) _ => t ^ 2) 0 (1 / 2) (fun _ => 0) y' k :=
  ⟨_, fun i _ => (0 + (irkCoeffs 210 : SolverCoeffs ℝ).cn i * (1 / 2)) ^ 2, fun _ => rfl, rfl⟩

end Verif
