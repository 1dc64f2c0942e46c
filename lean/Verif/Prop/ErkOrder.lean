import Verif.Order
import Verif.Prop.ErkReal
import Mathlib.Algebra.Polynomial.Derivative
import Mathlib.Algebra.Polynomial.Eval.Degree

/-!
# Properties C22 and C23: order of the explicit methods
-/

namespace Verif
open Spec Polynomial

/-! ### C23 -/

/-- check of shape, order and embedded order of a rational tableau -/
def orderOK (sc : SolverCoeffs ℚ) (p p2 : ℕ) : Bool :=
  sc.A.length == sc.ns && sc.A.all (·.length == sc.ns) && sc.order == some (p : ℤ) &&
  sc.order2 == some (p2 : ℤ) && checkOrder sc.A sc.b p &&
  (sc.b2.isEmpty || (sc.b2.length == sc.ns && checkOrder sc.A sc.b2 p2)) &&
  (List.range p).all (fun q => (List.zipWith (fun b c => b * c ^ q) sc.b sc.c).sum * (q + 1) == 1) &&
  (sc.b2.isEmpty || (List.range p2).all
    (fun q => (List.zipWith (fun b c => b * c ^ q) sc.b2 sc.c).sum * (q + 1) == 1)) &&
  sc.c.length == sc.ns

/-- the orders the library declares -/
def declared (m : ℤ) : ℕ × ℕ :=
  if m = 100 then (1, 0) else if m = 110 then (4, 0) else if m = 120 then (3, 2) else (5, 4)

set_option maxRecDepth 100000 in
theorem orderOK_shipped : ∀ m ∈ erkImplemented,
    orderOK (erkCoeffs m) (declared m).1 (declared m).2 = true := by
  decide +kernel

theorem orderOK_facts {sc : SolverCoeffs ℚ} {p p2 : ℕ} (h : orderOK sc p p2 = true) :
    sc.order = some (p : ℤ) ∧ sc.order2 = some (p2 : ℤ) ∧
    HasOrder (fun i j : Fin sc.ns => sc.a i j) (fun i => sc.bw i) p ∧
    (sc.b2 ≠ [] → HasOrder (fun i j : Fin sc.ns => sc.a i j) (fun i => sc.bw2 i) p2) ∧
    (∀ q < p, ∑ i : Fin sc.ns, sc.bw i * sc.cn i ^ q = 1 / (q + 1)) ∧
    (sc.b2 ≠ [] → ∀ q < p2, ∑ i : Fin sc.ns, sc.bw2 i * sc.cn i ^ q = 1 / (q + 1)) := by
  simp only [orderOK, Bool.and_eq_true, beq_iff_eq, List.all_eq_true, Bool.or_eq_true,
    List.isEmpty_iff, List.mem_range] at h
  obtain ⟨⟨⟨⟨⟨⟨⟨⟨h1, h2⟩, h3⟩, h4⟩, h5⟩, h6⟩, h7⟩, h8⟩, h9⟩ := h
  have quad : ∀ (w : List ℚ) (q : ℕ), w.length = sc.ns →
      (List.zipWith (fun b c => b * c ^ q) w sc.c).sum =
        ∑ i : Fin sc.ns, w.getD i 0 * sc.c.getD i 0 ^ q := by
    intro w q hw
    have : List.zipWith (fun b c => b * c ^ q) w sc.c =
        List.ofFn fun i : Fin sc.ns => w.getD i 0 * sc.c.getD i 0 ^ q := by
      apply List.ext_getElem
      · simp [hw, h9]
      · intro i g1 g2
        simp only [List.length_zipWith, Nat.lt_min] at g1
        simp [g1.1, g1.2]
    rw [this, List.sum_ofFn]
  refine ⟨h3, h4, hasOrder_of_check ⟨h1, h2⟩ rfl h5, fun hb => ?_, fun q hq => ?_, fun hb q hq => ?_⟩
  · obtain ⟨g1, g2⟩ := h6.resolve_left hb
    exact hasOrder_of_check ⟨h1, h2⟩ g1 g2
  · have := h7 q hq
    rw [quad sc.b q rfl] at this
    rw [eq_div_iff (by positivity)]
    exact this
  · have := (h8.resolve_left hb) q hq
    rw [quad sc.b2 q (h6.resolve_left hb).1] at this
    rw [eq_div_iff (by positivity)]
    exact this

/-- **C23.**  Every shipped explicit method satisfies Butcher's conditions for all rooted trees up to its declared
order, and its embedded weights (if there are any) up to the declared second order. -/
theorem C23_order_conditions {m : ℤ} (hm : m ∈ erkImplemented) :
    ∃ p p2 : ℕ, (erkCoeffs m : SolverCoeffs ℝ).order = some (p : ℤ) ∧
      (erkCoeffs m : SolverCoeffs ℝ).order2 = some (p2 : ℤ) ∧
      HasOrder (fun i j : Fin (erkCoeffs m : SolverCoeffs ℝ).ns => (erkCoeffs m : SolverCoeffs ℝ).a i j)
        (fun i => (erkCoeffs m : SolverCoeffs ℝ).bw i) p ∧
      ((erkCoeffs m : SolverCoeffs ℝ).b2 ≠ [] →
        HasOrder (fun i j : Fin (erkCoeffs m : SolverCoeffs ℝ).ns => (erkCoeffs m : SolverCoeffs ℝ).a i j)
          (fun i => (erkCoeffs m : SolverCoeffs ℝ).bw2 i) p2) := by
  obtain ⟨h1, h2, h3, h4, -⟩ := orderOK_facts (orderOK_shipped m hm)
  refine ⟨(declared m).1, (declared m).2, ?_⟩
  rw [erkCoeffs_cast]
  generalize hsc : (erkCoeffs m : SolverCoeffs ℚ) = sc at *
  refine ⟨h1, h2, ?_, ?_⟩
  · have := hasOrder_map (Rat.castHom ℝ) _ h3
    simp only [SolverCoeffs.a_cast, SolverCoeffs.bw_cast]
    have e := SolverCoeffs.ns_cast (sc := sc)
    generalize (sc.map (fun x : ℚ => (x : ℝ))).ns = s at *
    subst e
    exact this
  · intro hb
    have hb' : sc.b2 ≠ [] := by
      intro hc; apply hb; simp [SolverCoeffs.map, hc]
    have := hasOrder_map (Rat.castHom ℝ) _ (h4 hb')
    simp only [SolverCoeffs.a_cast, SolverCoeffs.bw2_cast]
    have e := SolverCoeffs.ns_cast (sc := sc)
    generalize (sc.map (fun x : ℚ => (x : ℝ))).ns = s at *
    subst e
    exact this

/-- Fehlberg's pair -/
example : ∃ p : ℕ, (erkCoeffs 132 : SolverCoeffs ℝ).order = some (p : ℤ) ∧
    HasOrder (fun i j : Fin (erkCoeffs 132 : SolverCoeffs ℝ).ns => (erkCoeffs 132 : SolverCoeffs ℝ).a i j)
      (fun i => (erkCoeffs 132 : SolverCoeffs ℝ).bw i) p := by
  obtain ⟨p, -, h1, -, h3, -⟩ := C23_order_conditions (m := 132) (by decide)
  exact ⟨p, h1, h3⟩

/-- Dormand–Prince satisfies the condition for the tree with five nodes in a line: `Σ b a a a c = 1/120` -/
example : (RTree.node [.node [.node [.node [.node []]]]]).order = 5 ∧
    (RTree.node [.node [.node [.node [.node []]]]]).density = 120 := by decide

/-- the declared orders are sharp for RK4: some tree with five nodes is violated -/
example : ¬ HasOrder (fun i j : Fin 4 => (rungeKutta4 : SolverCoeffs ℚ).a i j)
    (fun i => (rungeKutta4 : SolverCoeffs ℚ).bw i) 5 :=
  not_hasOrder (A := (rungeKutta4 : SolverCoeffs ℚ).A) (b := (rungeKutta4 : SolverCoeffs ℚ).b) (s := 4)
    ⟨rfl, by decide⟩ rfl (.node [.node [.node [.node [.node []]]]]) (by decide) (by decide +kernel)

/-! ### C22 -/

/-- the quadrature conditions of a shipped method, in the reals -/
theorem shipped_quad {m : ℤ} (hm : m ∈ erkImplemented) :
    (erkCoeffs m : SolverCoeffs ℝ).order = some ((declared m).1 : ℤ) ∧
    (erkCoeffs m : SolverCoeffs ℝ).order2 = some ((declared m).2 : ℤ) ∧
    (∀ q < (declared m).1, ∑ i : Fin (erkCoeffs m : SolverCoeffs ℝ).ns,
      (erkCoeffs m : SolverCoeffs ℝ).bw i * (erkCoeffs m : SolverCoeffs ℝ).cn i ^ q = 1 / (q + 1)) ∧
    ((erkCoeffs m : SolverCoeffs ℝ).b2 ≠ [] → ∀ q < (declared m).2,
      ∑ i : Fin (erkCoeffs m : SolverCoeffs ℝ).ns,
      (erkCoeffs m : SolverCoeffs ℝ).bw2 i * (erkCoeffs m : SolverCoeffs ℝ).cn i ^ q = 1 / (q + 1)) := by
  obtain ⟨h1, h2, -, -, h5, h6⟩ := orderOK_facts (orderOK_shipped m hm)
  rw [erkCoeffs_cast]
  generalize hsc : (erkCoeffs m : SolverCoeffs ℚ) = sc at *
  have e := SolverCoeffs.ns_cast (sc := sc)
  have key : ∀ (w w' : ℕ → ℚ) (q : ℕ), ∑ i : Fin sc.ns, w i * w' i ^ q = 1 / (q + 1) →
      ∑ i : Fin (sc.map (fun x : ℚ => (x : ℝ))).ns, ((w i : ℚ) : ℝ) * ((w' i : ℚ) : ℝ) ^ q =
        1 / (q + 1) := by
    intro w w' q h
    rw [e, Fin.sum_univ_eq_sum_range (fun i => ((w i : ℚ) : ℝ) * ((w' i : ℚ) : ℝ) ^ q)]
    rw [Fin.sum_univ_eq_sum_range (fun i => w i * w' i ^ q)] at h
    have h' := congrArg (fun x : ℚ => (x : ℝ)) h
    push_cast at h'
    exact h'
  refine ⟨h1, h2, fun q hq => ?_, fun hb q hq => ?_⟩
  · simp only [SolverCoeffs.bw_cast, SolverCoeffs.cn_cast]
    exact key _ _ q (h5 q hq)
  · have hb' : sc.b2 ≠ [] := by
      intro hc; apply hb; simp [SolverCoeffs.map, hc]
    simp only [SolverCoeffs.bw2_cast, SolverCoeffs.cn_cast]
    exact key _ _ q (h6 hb' q hq)

/-- a quadrature rule exact for monomials below `p` integrates derivatives of polynomials of degree `≤ p` -/
theorem quad_poly {s : ℕ} {w c : Fin s → ℝ} {p : ℕ}
    (h : ∀ q < p, ∑ i, w i * c i ^ q = 1 / ((q : ℝ) + 1)) {P : ℝ[X]} (hP : P.natDegree ≤ p) (t d : ℝ) :
    d * ∑ i, w i * (derivative P).eval (t + c i * d) = P.eval (t + d) - P.eval t := by
  set Q : ℝ[X] := P.comp (C t + C d * X) with hQ
  have hdeg : Q.natDegree ≤ p := by
    refine natDegree_comp_le.trans ?_
    have : (C t + C d * X : ℝ[X]).natDegree ≤ 1 := by
      refine (natDegree_add_le _ _).trans ?_
      simp only [natDegree_C, max_le_iff, zero_le, true_and]
      exact (natDegree_C_mul_le d X).trans natDegree_X_le
    calc P.natDegree * _ ≤ P.natDegree * 1 := Nat.mul_le_mul_left _ this
      _ ≤ p := by omega
  have hder : ∀ x, (derivative Q).eval x = d * (derivative P).eval (t + x * d) := by
    intro x
    rw [hQ, derivative_comp]
    simp only [derivative_add, derivative_C, derivative_mul, derivative_X, eval_mul, eval_comp,
      eval_add, eval_C, eval_X, zero_mul, zero_add, mul_one]
    rw [mul_comm d x]
  have h1 : d * ∑ i, w i * (derivative P).eval (t + c i * d) = ∑ i, w i * (derivative Q).eval (c i) := by
    rw [Finset.mul_sum]
    apply Finset.sum_congr rfl; intro i _; rw [hder]; ring
  have h2 : P.eval (t + d) - P.eval t = Q.eval 1 - Q.eval 0 := by simp [hQ, eval_comp]
  rw [h1, h2]
  clear_value Q
  rw [Q.as_sum_range' (p + 1) (by omega)]
  simp only [derivative_sum, eval_finsetSum]
  simp only [Finset.mul_sum]
  rw [Finset.sum_comm, ← Finset.sum_sub_distrib]
  apply Finset.sum_congr rfl
  intro k hk
  rw [Finset.mem_range] at hk
  cases k with
  | zero => simp
  | succ q =>
    simp only [derivative_monomial, eval_monomial, Nat.add_sub_cancel, one_pow, mul_one]
    have := h q (by omega)
    have e : ∀ i, w i * (Q.coeff (q + 1) * ((q + 1 : ℕ) : ℝ) * c i ^ q) =
        (Q.coeff (q + 1) * ((q + 1 : ℕ) : ℝ)) * (w i * c i ^ q) := fun i => by ring
    simp only [e]
    rw [← Finset.mul_sum, this]
    have : ((q : ℝ) + 1) ≠ 0 := by positivity
    push_cast
    field_simp
    simp

variable {n : ℕ} {nd : Bool} {t0 t1 : ℝ} {y0 : Vec ℝ n} {o : ErkOpts ℝ} {dt : ℝ} {oo : OutOpts}
  {fuel : ℕ} {out : ErkOutput ℝ n} {m : ℤ}

/-- **C22.**  For `y_k' = P_k'(t)` with polynomials `P_k` of degree at most the declared order, every returned sample
lies on the exact solution `y0 + P(t) - P(t0)`; fixed or adaptive steps. -/
theorem C22_polynomial_exact {P : Fin n → ℝ[X]} {p : ℕ}
    (hp : (erkCoeffs m : SolverCoeffs ℝ).order = some (p : ℤ)) (hP : ∀ k, (P k).natDegree ≤ p)
    (h : erkOdeint nd (fun t _ k => (derivative (P k)).eval t) t0 t1 y0 o oo m dt fuel = some (.ret out))
    (hpos : nd = false ∨ (0 < dt ∧ t0 < t1)) {i : ℕ} {t : ℝ} {y : Vec ℝ n}
    (ht : out.tVals[i]? = some t) (hy : out.yVals[i]? = some y) :
    ∀ k, y k = y0 k + (P k).eval t - (P k).eval t0 := by
  obtain ⟨hm, -⟩ := erkOdeint_ret h
  obtain ⟨q1, -, q3, -⟩ := shipped_quad hm
  rw [q1, Option.some.injEq] at hp
  have hp' : (declared m).1 = p := by exact_mod_cast hp
  rw [hp'] at q3
  induction i generalizing t y with
  | zero =>
    obtain ⟨-, -, -, -, h1, h2⟩ := C10_odeint h
    rw [List.head?_eq_getElem?] at h1 h2
    rw [h1, Option.some.injEq] at ht
    rw [h2, Option.some.injEq] at hy
    intro k; rw [← ht, ← hy]; ring
  | succ i ih =>
    obtain ⟨hi, -⟩ := List.getElem?_eq_some_iff.mp ht
    have ht0 : out.tVals[i]? = some (out.tVals[i]) := List.getElem?_eq_getElem (by omega)
    obtain ⟨z, z', K, h1, h2, -, h4, h5⟩ := C12_odeint h hpos ht0 ht
    rw [hy, Option.some.injEq] at h2
    intro k
    rw [h2, h5]
    have hz := ih ht0 h1 k
    have hK : ∀ j, K j k = (derivative (P k)).eval (out.tVals[i] +
        (erkCoeffs m : SolverCoeffs ℝ).cn j * (t - out.tVals[i])) := fun j => by rw [h4 j]
    have hq := quad_poly q3 (hP k) (out.tVals[i]) (t - out.tVals[i])
    simp only [Pi.add_apply, Pi.smul_apply, Finset.sum_apply, smul_eq_mul, hK, hq, hz]
    rw [show out.tVals[i] + (t - out.tVals[i]) = t by ring]
    ring

/-- **C22 (embedded).**  If the degrees are at most the declared second order, the recorded error estimates of an
adaptive run vanish: the embedded formula is exact as well. -/
theorem C22_embedded_exact {P : Fin n → ℝ[X]} {p2 p : ℕ}
    (hp2 : (erkCoeffs m : SolverCoeffs ℝ).order2 = some (p2 : ℤ)) (hP : ∀ k, (P k).natDegree ≤ p2)
    (hp : (erkCoeffs m : SolverCoeffs ℝ).order = some (p : ℤ)) (hle : p2 ≤ p)
    (had : o.adaptive = true) (hb2 : (erkCoeffs m : SolverCoeffs ℝ).b2 ≠ [])
    (h : erkOdeint nd (fun t _ k => (derivative (P k)).eval t) t0 t1 y0 o oo m dt fuel = some (.ret out))
    (hpos : nd = false ∨ (0 < dt ∧ t0 < t1)) : ∀ ee ∈ out.errEst, ee = 0 := by
  obtain ⟨hm, hG⟩ := erkOdeint_ret h
  obtain ⟨q1, q2, q3, q4⟩ := shipped_quad hm
  rw [q1, Option.some.injEq] at hp
  rw [q2, Option.some.injEq] at hp2
  have hp' : (declared m).1 = p := by exact_mod_cast hp
  have hp2' : (declared m).2 = p2 := by exact_mod_cast hp2
  rw [hp'] at q3
  rw [hp2'] at q4
  intro ee hee
  obtain ⟨i, hi, rfl⟩ := List.mem_iff_getElem.mp hee
  have hlen := (C10_odeint h).2.2.1
  cases i with
  | zero =>
    obtain ⟨recs, hc, hh, -⟩ := erk_out_facts hG
    have : out.errEst.head? = some (fun _ => lit 0) := by rw [hc.errEst, List.head?_map, hh]; rfl
    rw [List.head?_eq_getElem?, List.getElem?_eq_getElem hi, Option.some.injEq] at this
    rw [this]; funext k; simp
  | succ i =>
    rw [hlen] at hi
    have ht0 : out.tVals[i]? = some (out.tVals[i]) := List.getElem?_eq_getElem (by omega)
    have ht : out.tVals[i + 1]? = some (out.tVals[i + 1]) := List.getElem?_eq_getElem hi
    obtain ⟨z, z', K, ee, e, h1, h2, h3, h4, -, h5, -⟩ := C13_within_tolerance h hpos had hb2 ht0 ht
    obtain ⟨w, w', K', g1, g2, g3, g4, g5⟩ := C12_odeint h hpos ht0 ht
    have hKK : K = K' := by
      rw [h3, Option.some.injEq] at g3
      exact List.ofFn_injective g3
    subst hKK
    rw [List.getElem?_eq_getElem (by omega), Option.some.injEq] at h4
    rw [h4, h5]
    funext k
    set d := out.tVals[i + 1] - out.tVals[i]
    have hK : ∀ j, K j k = (derivative (P k)).eval (out.tVals[i] +
        (erkCoeffs m : SolverCoeffs ℝ).cn j * d) := fun j => by rw [g4 j]
    have a1 := quad_poly q3 ((hP k).trans hle) (out.tVals[i]) d
    have a2 := quad_poly (q4 hb2) (hP k) (out.tVals[i]) d
    simp only [Pi.zero_apply, Pi.smul_apply, Finset.sum_apply, smul_eq_mul, hK, sub_mul]
    rw [Finset.sum_sub_distrib, mul_sub, a1, a2, sub_self]

/-- `y' = 5 t⁴` integrated by one Dormand–Prince-run: hypotheses are met (degree 5 = declared order) -/
example : (erkCoeffs 131 : SolverCoeffs ℝ).order = some ((5 : ℕ) : ℤ) ∧ (X ^ 5 : ℝ[X]).natDegree ≤ 5 ∧
    ∃ fuel out, erkOdeint (n := 1) false (fun t _ _ => (derivative (X ^ 5 : ℝ[X])).eval t) 0 1 (fun _ => 0)
      { adaptive := true, relTol := 1, absTol := 1, maxDt := 0, maxSteps := -1 } OutOpts.dflt 131 1 fuel
        = some (.ret out) := by
  refine ⟨by simp [erkCoeffs, dormandPrince54], by simp, ?_⟩
  refine adaptive_run_exists (M := 5) (by decide) (fun h => by revert h; decide) rfl
    (by simp [erkCoeffs, dormandPrince54]) one_pos zero_le_one ?_ one_pos one_pos
  intro t y k h0 h1
  have e : (derivative (X ^ 5 : ℝ[X])).eval t = 5 * t ^ 4 := by
    simp; left; norm_num
  rw [e, abs_of_nonneg (by positivity)]
  have : t ^ 4 ≤ 1 := pow_le_one₀ h0 h1
  linarith

/-- `C22_polynomial_exact` and `C22_embedded_exact` on a run: Dormand–Prince integrates `y' = 4 t³` exactly and every
error estimate is zero -/
example : ∃ fuel out, erkOdeint (n := 1) false (fun t _ _ => (derivative (X ^ 4 : ℝ[X])).eval t) 0 1 (fun _ => 0)
      { adaptive := true, relTol := 1, absTol := 1, maxDt := 0, maxSteps := -1 } OutOpts.dflt 131 1 fuel
        = some (.ret out) ∧ (∀ ee ∈ out.errEst, ee = 0) ∧
    ∀ (i : ℕ) (t : ℝ) (y : Vec ℝ 1), out.tVals[i]? = some t → out.yVals[i]? = some y → y 0 = t ^ 4 := by
  obtain ⟨fuel, out, h⟩ := adaptive_run_exists (n := 1) (nd := false) (y0 := fun _ => 0) (M := 4)
    (f := fun t _ _ => (derivative (X ^ 4 : ℝ[X])).eval t) (t0 := 0) (t1 := 1) (m := 131) (dt := 1) (oo := OutOpts.dflt)
    (o := { adaptive := true, relTol := 1, absTol := 1, maxDt := 0, maxSteps := -1 })
    (by decide) (fun h => by revert h; decide) rfl
    (by simp [erkCoeffs, dormandPrince54]) one_pos zero_le_one (by
      intro t y k h0 h1
      have e : (derivative (X ^ 4 : ℝ[X])).eval t = 4 * t ^ 3 := by
        simp; left; norm_num
      rw [e, abs_of_nonneg (by positivity)]
      have : t ^ 3 ≤ 1 := pow_le_one₀ h0 h1
      linarith) one_pos one_pos
  refine ⟨fuel, out, h, ?_, ?_⟩
  · exact C22_embedded_exact (P := fun _ => X ^ 4) (p2 := 4) (p := 5) (by simp [erkCoeffs, dormandPrince54])
      (fun _ => by simp) (by simp [erkCoeffs, dormandPrince54]) (by norm_num) rfl (by simp [erkCoeffs, dormandPrince54]) h (Or.inl rfl)
  · intro i t y ht hy
    have := C22_polynomial_exact (P := fun _ => X ^ 4) (p := 5) (by simp [erkCoeffs, dormandPrince54])
      (fun _ => by simp) h (Or.inl rfl) ht hy 0
    simpa using this

end Verif
