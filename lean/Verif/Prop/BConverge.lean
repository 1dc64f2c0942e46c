import Verif.Prop.BStable
import Mathlib.Analysis.Calculus.MeanValue

/-!
# Property C95: on contractive equations the error of the Radau IIA methods does not depend on the stiffness
-/

set_option autoImplicit false

namespace Verif
open Spec Set

section taylor
variable {n : ℕ} {t0 t1 M : ℝ} {p : ℕ} {u : ℝ → Vec ℝ n} {v : ℕ → ℝ → Vec ℝ n}

/-- Taylor polynomial of `v k` at `a` -/
noncomputable def taylorP (v : ℕ → ℝ → Vec ℝ n) (a : ℝ) (k q : ℕ) (x : ℝ) : Vec ℝ n :=
  ∑ l ∈ Finset.range (q + 1), ((x - a) ^ l / (l.factorial : ℝ)) • v (k + l) a

theorem taylorP_self (a : ℝ) (k q : ℕ) : taylorP v a k q a = v k a := by
  unfold taylorP
  rw [Finset.sum_range_succ']
  simp

theorem hasDerivAt_taylorP (a : ℝ) (k q : ℕ) (x : ℝ) : HasDerivAt (taylorP v a k (q + 1)) (taylorP v a (k + 1) q x) x := by
  unfold taylorP
  have h : ∀ l ∈ Finset.range (q + 1 + 1), HasDerivAt (fun x => ((x - a) ^ l / (l.factorial : ℝ)) • v (k + l) a)
      (((l : ℝ) * (x - a) ^ (l - 1) / (l.factorial : ℝ)) • v (k + l) a) x := by
    intro l _
    have h1 := (((hasDerivAt_id x).sub_const a).pow l).div_const (l.factorial : ℝ)
    simp only [id, mul_one] at h1
    exact h1.smul_const _
  have := HasDerivAt.fun_sum h
  refine this.congr_deriv ?_
  rw [Finset.sum_range_succ']
  simp only [Nat.cast_zero, zero_mul, zero_div, zero_smul, add_zero]
  refine Finset.sum_congr rfl fun l _ => ?_
  have e : ((l + 1 : ℕ) : ℝ) * (x - a) ^ (l + 1 - 1) / ((l + 1).factorial : ℝ) = (x - a) ^ l / (l.factorial : ℝ) := by
    rw [Nat.factorial_succ, Nat.add_sub_cancel]
    have : (l.factorial : ℝ) ≠ 0 := by positivity
    have h2 : ((l + 1 : ℕ) : ℝ) ≠ 0 := by positivity
    push_cast at h2 ⊢
    field_simp
  rw [e, show k + (l + 1) = k + 1 + l by ring]

/-- Taylor's formula with a bound on the remainder -/
theorem taylor_bound (hM : 0 ≤ M) (hv : ∀ k ≤ p, ∀ t ∈ Icc t0 t1, HasDerivWithinAt (v k) (v (k + 1) t) (Icc t0 t1) t)
    (hb : ∀ t ∈ Icc t0 t1, eucl (v (p + 1) t) ≤ M) (q : ℕ) : ∀ k, k + q = p → ∀ a x, t0 ≤ a → a ≤ x → x ≤ t1 →
    eucl (v k x - taylorP v a k q x) ≤ M * (x - a) ^ (q + 1) := by
  have mean : ∀ (g g' : ℝ → Vec ℝ n) (a x B : ℝ), a ≤ x → g a = 0 → (∀ y ∈ Icc a x, HasDerivWithinAt g (g' y) (Icc a x) y) →
      (∀ y ∈ Icc a x, eucl (g' y) ≤ B) → eucl (g x) ≤ B * (x - a) := by
    intro g g' a x B hax h0 hd hB
    obtain ⟨e, he⟩ : ∃ e : Vec ℝ n →L[ℝ] EuclideanSpace ℝ (Fin n), e = LinearMap.toContinuousLinearMap toE := ⟨_, rfl⟩
    have he' : ∀ y, e y = toE y := fun y => by rw [he]; rfl
    have hd' : ∀ y ∈ Icc a x, HasDerivWithinAt (fun y => e (g y)) (e (g' y)) (Icc a x) y := fun y hy => by
      have := e.hasFDerivAt.comp_hasDerivWithinAt y (hd y hy)
      exact this
    have := norm_image_sub_le_of_norm_deriv_le_segment' hd' (fun y hy => by
      rw [he', norm_toE]; exact hB y ⟨hy.1, hy.2.le⟩) x ⟨hax, le_rfl⟩
    rw [he', he', h0, map_zero, sub_zero, norm_toE] at this
    exact this
  induction q with
  | zero =>
    intro k hk a x ha hax hx
    have hk' : k = p := by omega
    subst hk'
    have hsub : Icc a x ⊆ Icc t0 t1 := Icc_subset_Icc ha hx
    have := mean (fun y => v k y - v k a) (fun y => v (k + 1) y) a x M hax (sub_self _)
      (fun y hy => ((hv k le_rfl y (hsub hy)).mono hsub).sub_const _) (fun y hy => hb y (hsub hy))
    simpa [taylorP] using this
  | succ q ih =>
    intro k hk a x ha hax hx
    have hsub : Icc a x ⊆ Icc t0 t1 := Icc_subset_Icc ha hx
    have := mean (fun y => v k y - taylorP v a k (q + 1) y) (fun y => v (k + 1) y - taylorP v a (k + 1) q y) a x (M * (x - a) ^ (q + 1)) hax
      (by simp only [taylorP_self, sub_self])
      (fun y hy => ((hv k (by omega) y (hsub hy)).mono hsub).sub (hasDerivAt_taylorP a k q y).hasDerivWithinAt)
      (fun y hy => (ih (k + 1) (by omega) a y ha hy.1 (hy.2.trans hx)).trans
        (mul_le_mul_of_nonneg_left (pow_le_pow_left₀ (sub_nonneg.mpr hy.1) (by linarith [hy.2]) _) hM))
    rw [pow_succ, ← mul_assoc]
    exact this

/-- a quadrature formula with nodes in `[0,1]` that is exact on polynomials of degree below `p` -/
theorem quadrature_bound {s : ℕ} (hp : 1 ≤ p) (hM : 0 ≤ M) (hv : Derivatives t0 t1 p u v) (hb : ∀ t ∈ Icc t0 t1, eucl (v (p + 1) t) ≤ M)
    {w c : Fin s → ℝ} {x : ℝ} (hx : 0 ≤ x ∧ x ≤ 1) (hc : ∀ j, 0 ≤ c j ∧ c j ≤ 1)
    (hw : ∀ l < p, ∑ j, w j * c j ^ l * ((l + 1 : ℕ) : ℝ) = x ^ (l + 1)) {a h : ℝ} (ha : t0 ≤ a) (hh : 0 ≤ h) (hah : a + h ≤ t1) :
    eucl (u (a + x * h) - (u a + h • ∑ j, w j • v 1 (a + c j * h))) ≤ (1 + ∑ j, |w j|) * (M * h ^ (p + 1)) := by
  obtain ⟨q, rfl⟩ : ∃ q, p = q + 1 := ⟨p - 1, by omega⟩
  obtain ⟨hu, hd⟩ := hv
  have hxh : ∀ z : ℝ, 0 ≤ z ∧ z ≤ 1 → a ≤ a + z * h ∧ a + z * h ≤ t1 ∧ z * h ≤ h := fun z hz =>
    ⟨by linarith [mul_nonneg hz.1 hh], by linarith [mul_le_of_le_one_left hh hz.2], mul_le_of_le_one_left hh hz.2⟩
  have t1' := taylor_bound hM hd hb (q + 1) 0 (by omega) a (a + x * h) ha (hxh x hx).1 (hxh x hx).2.1
  have t2 := fun j => taylor_bound hM hd hb q 1 (by omega) a (a + c j * h) ha (hxh _ (hc j)).1 (hxh _ (hc j)).2.1
  rw [hu, add_sub_cancel_left] at t1'
  simp only [add_sub_cancel_left] at t2
  -- the polynomial parts agree
  have hpoly : taylorP v a 0 (q + 1) (a + x * h) = u a + h • ∑ j, w j • taylorP v a 1 q (a + c j * h) := by
    unfold taylorP
    rw [Finset.sum_range_succ']
    simp only [add_sub_cancel_left, Nat.factorial_zero, Nat.cast_one, pow_zero, div_one, one_smul, add_zero, zero_add, hu]
    rw [add_comm]
    congr 1
    simp only [Finset.smul_sum]
    rw [Finset.sum_comm]
    refine Finset.sum_congr rfl fun l hl => ?_
    have hl' := hw l (by simpa using hl)
    simp only [smul_smul, ← Finset.sum_smul]
    rw [add_comm 1 l]
    congr 1
    have hf : (l.factorial : ℝ) ≠ 0 := by positivity
    have hl1 : ((l + 1 : ℕ) : ℝ) ≠ 0 := by positivity
    have e : ∑ j, h * (w j * ((c j * h) ^ l / (l.factorial : ℝ))) = h ^ (l + 1) / ((l.factorial : ℝ) * ((l + 1 : ℕ) : ℝ)) *
        ∑ j, w j * c j ^ l * ((l + 1 : ℕ) : ℝ) := by
      rw [Finset.mul_sum]
      refine Finset.sum_congr rfl fun j _ => ?_
      field_simp
      ring
    rw [e, hl', Nat.factorial_succ]
    push_cast
    have hl2 : (l : ℝ) + 1 ≠ 0 := by positivity
    field_simp
    ring
  have e : u (a + x * h) - (u a + h • ∑ j, w j • v 1 (a + c j * h)) = (u (a + x * h) - taylorP v a 0 (q + 1) (a + x * h)) -
      h • ∑ j, w j • (v 1 (a + c j * h) - taylorP v a 1 q (a + c j * h)) := by
    rw [hpoly]
    simp only [smul_sub, Finset.sum_sub_distrib]
    abel
  rw [e]
  refine (eucl_sub _ _).trans ?_
  have b1 : eucl (u (a + x * h) - taylorP v a 0 (q + 1) (a + x * h)) ≤ M * h ^ (q + 1 + 1) :=
    t1'.trans (mul_le_mul_of_nonneg_left (pow_le_pow_left₀ (mul_nonneg hx.1 hh) (hxh x hx).2.2 _) hM)
  have b2 : eucl (h • ∑ j, w j • (v 1 (a + c j * h) - taylorP v a 1 q (a + c j * h))) ≤ (∑ j, |w j|) * (M * h ^ (q + 1 + 1)) := by
    rw [eucl_smul, abs_of_nonneg hh, pow_succ h (q + 1), Finset.sum_mul]
    calc h * eucl (∑ j, w j • (v 1 (a + c j * h) - taylorP v a 1 q (a + c j * h)))
        ≤ h * ∑ j, |w j| * (M * h ^ (q + 1)) := by
          refine mul_le_mul_of_nonneg_left ((eucl_sum _ _).trans (Finset.sum_le_sum fun j _ => ?_)) hh
          rw [eucl_smul]
          exact mul_le_mul_of_nonneg_left ((t2 j).trans (mul_le_mul_of_nonneg_left
            (pow_le_pow_left₀ (mul_nonneg (hc j).1 hh) (hxh _ (hc j)).2.2 _) hM)) (abs_nonneg _)
      _ = _ := by
          rw [Finset.mul_sum]
          exact Finset.sum_congr rfl fun j _ => by ring
  linarith

end taylor

/-- the stage order is `p` (conditions `B(p)` and `C(p)`) and the nodes are in `[0,1]` -/
def stageOrderOK {d : ℕ} (sq : SolverCoeffs (QS d)) (p : ℕ) : Bool :=
  ((List.range sq.ns).all fun i => posQ (sq.c.getD i 0) && posQ (1 - sq.c.getD i 0)) &&
    ((List.range p).all fun l => ((List.range sq.ns).all fun i =>
      sumR sq.ns (fun j => ent sq.A i j * sq.c.getD j 0 ^ l * lit ((l + 1 : ℕ) : ℚ)) == sq.c.getD i 0 ^ (l + 1)) &&
      sumR sq.ns (fun j => sq.b.getD j 0 * sq.c.getD j 0 ^ l * lit ((l + 1 : ℕ) : ℚ)) == 1)

theorem stageOrder_shipped : ∀ q ∈ ([(210, 2), (211, 3)] : List (ℤ × ℕ)),
    stageOrderOK (irkCoeffs q.1 : SolverCoeffs (QS (rootOf q.1))) q.2 = true := by
  decide +kernel

section transfer
variable {d : ℕ} {sc : SolverCoeffs ℝ} {sq : SolverCoeffs (QS d)} {p : ℕ}

theorem Img.nodes (h : Img sc sq) (hs : stageOrderOK sq p = true) (i : Fin sc.ns) : 0 ≤ sc.cn i ∧ sc.cn i ≤ 1 := by
  simp only [stageOrderOK, Bool.and_eq_true, List.all_eq_true, List.mem_range] at hs
  obtain ⟨h1, h2⟩ := hs.1 i (by rw [← h.ns]; exact i.2)
  have k1 := pos_ev h1
  have k2 := pos_ev h2
  rw [map_sub, map_one] at k2
  rw [h.cn]
  exact ⟨k1, by linarith⟩

theorem Img.stageOrder (h : Img sc sq) (hs : stageOrderOK sq p = true) (i : Fin sc.ns) {l : ℕ} (hl : l < p) :
    ∑ j : Fin sc.ns, sc.a i j * sc.cn j ^ l * ((l + 1 : ℕ) : ℝ) = sc.cn i ^ (l + 1) := by
  simp only [stageOrderOK, Bool.and_eq_true, List.all_eq_true, List.mem_range, beq_iff_eq, sumR_eq] at hs
  have := congrArg QS.ev ((hs.2 l hl).1 i (by rw [← h.ns]; exact i.2))
  simp only [map_sum, map_mul, map_pow, QS.ev_lit, lit_real, Rat.cast_natCast] at this
  simp only [h.a, h.cn]
  rw [← this]
  exact h.sum fun j => QS.ev (ent sq.A i j) * QS.ev (sq.c.getD j 0) ^ l * ((l + 1 : ℕ) : ℝ)

theorem Img.quadOrder (h : Img sc sq) (hs : stageOrderOK sq p = true) {l : ℕ} (hl : l < p) :
    ∑ j : Fin sc.ns, sc.bw j * sc.cn j ^ l * ((l + 1 : ℕ) : ℝ) = 1 ^ (l + 1) := by
  simp only [stageOrderOK, Bool.and_eq_true, List.all_eq_true, List.mem_range, beq_iff_eq, sumR_eq] at hs
  have := congrArg QS.ev (hs.2 l hl).2
  simp only [map_sum, map_mul, map_pow, QS.ev_lit, lit_real, Rat.cast_natCast, map_one] at this
  simp only [h.bw, h.cn, one_pow]
  rw [← this]
  exact h.sum fun j => QS.ev (sq.b.getD j 0) * QS.ev (sq.c.getD j 0) ^ l * ((l + 1 : ℕ) : ℝ)

end transfer

/-- **C95.**  RADAU_IIA_32 (`p = 2`) and RADAU_IIA_53 (`p = 3`): there is a constant `C` that depends on the method only, such that for
every contractive equation and every solution `u` of it with `p+1` derivatives, the last bounded by `M`, every run with steps at most `h`
has all its recorded and streamed values within `|y0 - u(t0)| + C ((t1-t0) M h^p + N δ)` of the solution.  Here `N` is the number of
accepted steps and `δ` what the Newton iteration may leave (`StageDefect`, zero for linear equations).  Neither a bound on the derivatives
of `f` nor a condition on the step size is needed: the order is the same however stiff the equation. -/
theorem C95_convergence {m : ℤ} {p : ℕ} (hm : (m, p) ∈ ([(210, 2), (211, 3)] : List (ℤ × ℕ))) : ∃ C : ℝ, 0 ≤ C ∧
    ∀ (n : ℕ) (fn : OdeFun ℝ n) (t0 t1 dt h Λ δ M : ℝ) (u : ℝ → Vec ℝ n) (v : ℕ → ℝ → Vec ℝ n) (y0 : Vec ℝ n)
    (nd : Bool) (la : LinAlg ℝ) (o : IrkOpts ℝ) (no : NewtonOpts ℝ) (oo : OutOpts) (fuel : ℕ)
    (out : IrkOutput ℝ ((irkCoeffs m : SolverCoeffs ℝ).ns * n) n), la.Exact → la.Sound →
    irkOdeint nd la fn t0 t1 y0 o oo m dt fuel = some (.ret out) → (nd = false ∨ (0 < dt ∧ t0 < t1)) → o.newtonOpts = some no →
    t0 ≤ t1 → 0 ≤ h →
    ((0 < o.maxDt ∧ o.maxDt ≤ h ∧ dt ≤ h) ∨ (oo.storeInVectors = true ∧ oo.interval.toNat = 1 ∧
      ∀ (i : ℕ) (t t' : ℝ), out.tVals[i]? = some t → out.tVals[i + 1]? = some t' → t' - t ≤ h)) →
    Contractive fn.fn → Derivatives t0 t1 p u v → (∀ t ∈ Icc t0 t1, v 1 t = fn.fn t (u t)) →
    (∀ t ∈ Icc t0 t1, eucl (v (p + 1) t) ≤ M) → StageDefect fn no h Λ δ →
    (∀ (i : ℕ) (t : ℝ) (y : Vec ℝ n), out.tVals[i]? = some t → out.yVals[i]? = some y → eucl (y - u t) ≤ eucl (y0 - u t0) +
      C * ((t1 - t0) * (M * h ^ p) + (out.count.newtonSuccess - out.count.rejectErr : ℕ) * δ)) ∧
    ∀ l ∈ out.file, eucl (l.2 - u l.1) ≤ eucl (y0 - u t0) +
      C * ((t1 - t0) * (M * h ^ p) + (out.count.newtonSuccess - out.count.rejectErr : ℕ) * δ) := by
  have hm1 : ∀ q ∈ ([(210, 2), (211, 3)] : List (ℤ × ℕ)), q.1 ∈ ([210, 211] : List ℤ) ∧ q.1 ∈ irkImplemented ∧ 1 ≤ q.2 := by decide
  obtain ⟨i1, i2, hp⟩ := hm1 _ hm
  simp only at i1 i2 hp
  have hso := stageOrder_shipped _ hm
  simp only at hso
  have I := img_shipped i2
  obtain ⟨ω, D, β, hS⟩ := radau_stable i1
  obtain ⟨κ, C, -, hC, key⟩ := stable_step hS zero_le_one
  obtain ⟨S, hSd⟩ : ∃ S, S = 1 + ∑ i : Fin (irkCoeffs m : SolverCoeffs ℝ).ns, ∑ j : Fin (irkCoeffs m : SolverCoeffs ℝ).ns,
    |(irkCoeffs m : SolverCoeffs ℝ).a i j| + ∑ j : Fin (irkCoeffs m : SolverCoeffs ℝ).ns, |(irkCoeffs m : SolverCoeffs ℝ).bw j| := ⟨_, rfl⟩
  have s1 : 0 ≤ ∑ i : Fin (irkCoeffs m : SolverCoeffs ℝ).ns, ∑ j : Fin (irkCoeffs m : SolverCoeffs ℝ).ns,
    |(irkCoeffs m : SolverCoeffs ℝ).a i j| := Finset.sum_nonneg fun _ _ => Finset.sum_nonneg fun _ _ => abs_nonneg _
  have s2 : 0 ≤ ∑ j : Fin (irkCoeffs m : SolverCoeffs ℝ).ns, |(irkCoeffs m : SolverCoeffs ℝ).bw j| := Finset.sum_nonneg fun _ _ => abs_nonneg _
  have hS1 : 1 ≤ S := by linarith
  have hrow : ∀ i : Fin (irkCoeffs m : SolverCoeffs ℝ).ns, 1 + ∑ j : Fin (irkCoeffs m : SolverCoeffs ℝ).ns,
      |(irkCoeffs m : SolverCoeffs ℝ).a i j| ≤ S := fun i => by
    have := Finset.single_le_sum (f := fun i : Fin (irkCoeffs m : SolverCoeffs ℝ).ns => ∑ j : Fin (irkCoeffs m : SolverCoeffs ℝ).ns,
      |(irkCoeffs m : SolverCoeffs ℝ).a i j|) (fun _ _ => Finset.sum_nonneg fun _ _ => abs_nonneg _) (Finset.mem_univ i)
    linarith
  refine ⟨C * S, by positivity, ?_⟩
  intro n fn t0 t1 dt h Λ δ M u v y0 nd la o no oo fuel out hla hs hrun hpos hno h01 hh hsteps hf hv hsol hb hdef
  have hM : 0 ≤ M := (eucl_nonneg _).trans (hb t0 ⟨le_rfl, h01⟩)
  have hδ := hdef.nonneg hh
  obtain ⟨o', e1, e2, hg⟩ := irkOdeint_ret hrun
  obtain ⟨acc, hlen, hview, hch, hhead⟩ := run_chain (h := h) hla hs hg hpos (e1.trans hno)
  have hch' : acc.IsChain fun a b => StepOf fn no (irkCoeffs m) t0 t1 a b ∧ b.t - a.t ≤ h := by
    rcases hsteps with ⟨k1, k2, k3⟩ | ⟨k1, k2, k3⟩
    · exact hch.imp fun a b hab => ⟨hab.1, hab.2 (by rw [e2]; exact k1) (by rw [e2]; exact k2) k3⟩
    · have g1 := (chain_of_gaps hview k1 k2 k3).1
      rw [List.isChain_iff_getElem] at hch g1 ⊢
      exact fun i hi => ⟨(hch i hi).1, g1 i hi⟩
  have hstep : ∀ a b : SampleI ℝ n, StepOf fn no (irkCoeffs m) t0 t1 a b ∧ b.t - a.t ≤ h → a.t ≤ b.t ∧
      eucl (b.y - u b.t) ≤ 1 * eucl (a.y - u a.t) + C * δ + C * (S * (M * h ^ p)) * (b.t - a.t) := by
    rintro a b ⟨hab, hle⟩
    obtain ⟨h1, h2, h3⟩ := hab.1
    refine ⟨h1.le, ?_⟩
    have hd : 0 ≤ b.t - a.t := sub_nonneg.mpr h1.le
    have hbt : a.t + (b.t - a.t) = b.t := by ring
    have hpow : M * (b.t - a.t) ^ (p + 1) ≤ M * h ^ p * (b.t - a.t) := by
      rw [pow_succ, ← mul_assoc]
      exact mul_le_mul_of_nonneg_right (mul_le_mul_of_nonneg_left (pow_le_pow_left₀ hd hle _) hM) hd
    have hρ : ∀ K, 0 ≤ K → K ≤ S → K * (M * (b.t - a.t) ^ (p + 1)) ≤ S * (M * h ^ p * (b.t - a.t)) := fun K hK hKS =>
      (mul_le_mul_of_nonneg_left hpow hK).trans (mul_le_mul_of_nonneg_right hKS (by positivity))
    have hnode : ∀ j : Fin (irkCoeffs m : SolverCoeffs ℝ).ns,
        fn.fn (a.t + (irkCoeffs m : SolverCoeffs ℝ).cn j * (b.t - a.t)) (u (a.t + (irkCoeffs m : SolverCoeffs ℝ).cn j * (b.t - a.t))) =
        v 1 (a.t + (irkCoeffs m : SolverCoeffs ℝ).cn j * (b.t - a.t)) := fun j => by
      refine (hsol _ ⟨?_, ?_⟩).symm
      · linarith [mul_nonneg (I.nodes hso j).1 hd]
      · linarith [mul_le_of_le_one_left hd (I.nodes hso j).2]
    have := key n fn no t0 t1 h Λ δ (S * (M * h ^ p * (b.t - a.t))) a b (u a.t) (u b.t)
      (fun j => u (a.t + (irkCoeffs m : SolverCoeffs ℝ).cn j * (b.t - a.t))) hf hab hle hdef (by positivity)
      (fun i => by
        simp only [hnode]
        refine (quadrature_bound (w := fun j => (irkCoeffs m : SolverCoeffs ℝ).a i j) hp hM hv hb (I.nodes hso i) (I.nodes hso)
          (fun l hl => I.stageOrder hso i hl) h2 hd (by rw [hbt]; exact h3)).trans (hρ _ ?_ (hrow i))
        exact add_nonneg zero_le_one (Finset.sum_nonneg fun _ _ => abs_nonneg _))
      (by
        simp only [hnode]
        have := quadrature_bound (w := fun j : Fin (irkCoeffs m : SolverCoeffs ℝ).ns => (irkCoeffs m : SolverCoeffs ℝ).bw j) (x := 1) hp hM hv hb
          ⟨zero_le_one, le_rfl⟩ (I.nodes hso) (fun l hl => I.quadOrder hso hl) h2 hd (by rw [hbt]; exact h3)
        rw [one_mul, hbt] at this
        exact this.trans (hρ _ (by positivity) (by linarith)))
    calc _ ≤ _ := this
      _ = _ := by ring
  have hall : ∀ b ∈ acc, eucl (b.y - u b.t) ≤ eucl (y0 - u t0) +
      C * S * ((t1 - t0) * (M * h ^ p) + (out.count.newtonSuccess - out.count.rejectErr : ℕ) * δ) := by
    cases acc with
    | nil => cases hhead
    | cons a l =>
      simp only [List.head?_cons, Option.some.injEq] at hhead
      have hgr := chain_growth (g := fun b : SampleI ℝ n => eucl (b.y - u b.t)) (τ := fun b => b.t) (q := 1) (ζ := C * δ)
        (ξ := C * (S * (M * h ^ p))) le_rfl (by positivity) (by positivity) hstep (fun b => eucl_nonneg _) a l hch'
      intro b hb
      have hl : l.length = out.count.newtonSuccess - out.count.rejectErr := by simp only [List.length_cons] at hlen; omega
      have k1 := (hgr b hb).2
      rw [hhead, hl] at k1
      simp only [one_pow, one_mul, firstI] at k1
      have k2 : b.t ≤ t1 := by
        rcases List.mem_cons.mp hb with rfl | hb'
        · rw [hhead]; exact h01
        · obtain ⟨a', h'⟩ := chain_pred hch' hb'
          exact h'.1.1.2.2
      have k3 : C * (S * (M * h ^ p)) * (b.t - t0) ≤ C * (S * (M * h ^ p)) * (t1 - t0) :=
        mul_le_mul_of_nonneg_left (by linarith) (by positivity)
      have k4 : ((out.count.newtonSuccess - out.count.rejectErr : ℕ) : ℝ) * (C * δ) ≤
          C * S * ((out.count.newtonSuccess - out.count.rejectErr : ℕ) * δ) := by
        have : C * ((out.count.newtonSuccess - out.count.rejectErr : ℕ) * δ) ≤ C * ((out.count.newtonSuccess - out.count.rejectErr : ℕ) * δ) * S :=
          le_mul_of_one_le_right (by positivity) hS1
        linarith
      linarith
  exact ⟨recorded_of_all (P := fun t y => eucl (y - u t) ≤ _) hview hall, streamed_of_all (P := fun t y => eucl (y - u t) ≤ _) hview hall⟩

/-- **C95, completed runs.**  The same two methods on a contractive linear system `y' = J y + g(t)`, started on a solution `u` with a step
limit: the run reaches `t1`, and the value it returns there is within `C (t1-t0) M max_dt^p` of `u(t1)`, where `C` depends on the method
only. -/
theorem C95_completes {m : ℤ} {p : ℕ} (hm : (m, p) ∈ ([(210, 2), (211, 3)] : List (ℤ × ℕ))) : ∃ C : ℝ, 0 ≤ C ∧
    ∀ (n : ℕ) (fn : OdeFun ℝ n) (J : Matrix (Fin n) (Fin n) ℝ) (g : ℝ → Vec ℝ n) (t0 t1 dt M : ℝ) (u : ℝ → Vec ℝ n) (v : ℕ → ℝ → Vec ℝ n)
    (o : IrkOpts ℝ) (no : NewtonOpts ℝ) (oo : OutOpts), (∀ t y, fn.fn t y = J.mulVec y + g t) → (∀ t y i j, fn.jac t y i j = J i j) →
    TimeBounded g → Contractive fn.fn → 0 < n → t0 < t1 → Derivatives t0 t1 p u v → (∀ t ∈ Icc t0 t1, v 1 t = fn.fn t (u t)) →
    (∀ t ∈ Icc t0 t1, eucl (v (p + 1) t) ≤ M) → o.adaptive = true → o.maxSteps < 0 → o.newtonOpts = some no → 2 ≤ no.maxit →
    no.tol ≠ 0 → no.refreshJac ≠ 0 → 0 < o.absTol → 0 ≤ o.relTol → oo.storeInVectors = true → oo.interval.toNat = 1 →
    (oo.writeToFile = true → oo.streamSet = true) → 0 < o.maxDt → 0 < dt → dt ≤ o.maxDt →
    ∃ fuel out yEnd, irkOdeint false laReal fn t0 t1 (u t0) o oo m dt fuel = some (.ret out) ∧ out.status = 0 ∧
      out.tVals.getLast? = some t1 ∧ out.yVals.getLast? = some yEnd ∧ eucl (yEnd - u t1) ≤ C * ((t1 - t0) * (M * o.maxDt ^ p)) := by
  obtain ⟨C, hC, key⟩ := C95_convergence hm
  refine ⟨C, hC, ?_⟩
  intro n fn J g t0 t1 dt M u v o no oo hfn hJ hg hf hn h01 hv hsol hb had hms hno hmax htol hr hat hrt hst hint hw hmx hdt hdtle
  have hm5 : m ∈ ([210, 211, 230, 231, 232] : List ℤ) := by
    have : ∀ q ∈ ([(210, 2), (211, 3)] : List (ℤ × ℕ)), q.1 ∈ ([210, 211, 230, 231, 232] : List ℤ) := by decide
    exact this _ hm
  obtain ⟨fuel, out, h1, h2, -, -, h5⟩ := C67_stiff_success (y0 := u t0) (oo := oo) hm5 hfn hJ hg (dissipative_of_contractive hfn hf) hn h01
    hdt had hms hno hmax htol hr hat hrt (by rw [hint]; decide) hw
  have hlast := h5 hst hint
  obtain ⟨hall, -⟩ := key n fn t0 t1 dt o.maxDt 0 0 M u v (u t0) false laReal o no oo fuel out laReal_exact laReal_sound h1 (Or.inl rfl) hno
    h01.le hmx.le (Or.inl ⟨hmx, le_rfl, hdtle⟩) hf hv hsol hb (Or.inl ⟨⟨J, g, hfn, hJ⟩, rfl⟩)
  have hlen : out.tVals.length = out.yVals.length := by
    obtain ⟨o', -, -, hg'⟩ := irkOdeint_ret h1
    obtain ⟨acc, -, hv, -, -⟩ := irk_accs_count (J := fun _ => True) (Rel := fun _ _ => True) hg' (Or.inl rfl)
      (fun _ => trivial) (fun _ _ _ _ _ _ _ _ _ => trivial) (fun _ _ _ _ _ _ _ _ _ _ _ _ _ _ _ _ _ => trivial)
    rw [hv.cols.t, hv.cols.y, List.length_map, List.length_map]
  have hne : out.yVals ≠ [] := by
    intro h
    rw [h, List.length_nil, List.length_eq_zero_iff] at hlen
    rw [hlen] at hlast
    cases hlast
  refine ⟨fuel, out, out.yVals.getLast hne, h1, h2, hlast, List.getLast?_eq_getLast_of_ne_nil hne, ?_⟩
  have := hall (out.tVals.length - 1) t1 (out.yVals.getLast hne) (by rw [← List.getLast?_eq_getElem?]; exact hlast)
    (by rw [hlen, ← List.getLast?_eq_getElem?]; exact List.getLast?_eq_getLast_of_ne_nil hne)
  simpa [eucl_zero] using this

/-! ### the hypotheses are satisfiable -/

/-- the equation of Prothero and Robinson, `y' = λ (y - cos t) - sin t` with the solution `cos t`, however stiff -/
noncomputable def prothero (l : ℝ) : OdeFun ℝ 1 :=
  { fn := fun t y k => l * (y k - Real.cos t) - Real.sin t
    jac := fun _ _ _ _ => l }

/-- the derivatives of the cosine -/
noncomputable def cosDeriv (k : ℕ) (t : ℝ) : Vec ℝ 1 := fun _ => Real.cos (t + k * (Real.pi / 2))

theorem prothero_facts {l : ℝ} (hl : l ≤ 0) (t0 t1 : ℝ) (p : ℕ) : Contractive (prothero l).fn ∧
    Derivatives t0 t1 p (fun t _ => Real.cos t) cosDeriv ∧ (∀ t ∈ Icc t0 t1, cosDeriv 1 t = (prothero l).fn t fun _ => Real.cos t) ∧
    (∀ t ∈ Icc t0 t1, eucl (cosDeriv (p + 1) t) ≤ 1) := by
  refine ⟨fun t y z => ?_, ⟨?_, fun k _ t _ => ?_⟩, fun t _ => ?_, fun t _ => ?_⟩
  · rw [Fin.sum_univ_one]
    simp only [prothero]
    nlinarith [mul_nonneg (neg_nonneg.mpr hl) (sq_nonneg (y 0 - z 0))]
  · funext t k; simp [cosDeriv]
  · refine HasDerivAt.hasDerivWithinAt ?_
    rw [hasDerivAt_pi]
    intro i
    have h := ((hasDerivAt_id t).add_const (k * (Real.pi / 2))).cos
    refine h.congr_deriv ?_
    simp only [cosDeriv, id, mul_one]
    push_cast
    rw [show t + (k + 1 : ℝ) * (Real.pi / 2) = t + k * (Real.pi / 2) + Real.pi / 2 by ring, Real.cos_add_pi_div_two]
  · funext k
    simp [cosDeriv, prothero, Real.cos_add_pi_div_two]
  · rw [eucl_one]
    exact Real.abs_cos_le_one _

/-- `C95_completes`: one constant serves all `λ ≤ 0` -/
example : ∃ C : ℝ, 0 ≤ C ∧ ∀ (l : ℝ) (o : IrkOpts ℝ) (dt : ℝ), l ≤ 0 → o.adaptive = true → o.maxSteps < 0 →
    o.newtonOpts = some NewtonOpts.dflt → 0 < o.absTol → 0 ≤ o.relTol → 0 < o.maxDt → 0 < dt → dt ≤ o.maxDt →
    ∃ fuel out yEnd, irkOdeint false laReal (prothero l) 0 10 (fun _ => Real.cos 0) o OutOpts.dflt 211 dt fuel = some (.ret out) ∧
      out.status = 0 ∧ out.tVals.getLast? = some 10 ∧ out.yVals.getLast? = some yEnd ∧
      eucl (yEnd - fun _ => Real.cos 10) ≤ C * ((10 - 0) * (1 * o.maxDt ^ 3)) := by
  obtain ⟨C, hC, key⟩ := C95_completes (m := 211) (p := 3) (by decide)
  refine ⟨C, hC, fun l o dt hl a1 a2 a3 a4 a5 a6 a7 a8 => ?_⟩
  obtain ⟨f1, f2, f3, f4⟩ := prothero_facts hl 0 10 3
  exact key 1 (prothero l) (Matrix.of fun _ _ => l) (fun t _ => -l * Real.cos t - Real.sin t) 0 10 dt 1 (fun t _ => Real.cos t) cosDeriv o
    NewtonOpts.dflt OutOpts.dflt
    (fun t y => by
      funext k
      have : k = 0 := Subsingleton.elim _ _
      subst this
      simp only [prothero, Pi.add_apply, Matrix.mulVec, dotProduct, Matrix.of_apply, Fin.sum_univ_one]
      ring)
    (fun _ _ _ _ => rfl)
    (fun R => ⟨|l| + 1, fun t _ k => by
      refine (abs_sub _ _).trans (add_le_add ?_ (Real.abs_sin_le_one t))
      rw [abs_mul, abs_neg]
      exact mul_le_of_le_one_right (abs_nonneg _) (Real.abs_cos_le_one t)⟩)
    f1 (by norm_num) (by norm_num) f2 f3 f4 a1 a2 a3 (by norm_num [NewtonOpts.dflt]) (by norm_num [NewtonOpts.dflt])
    (by norm_num [NewtonOpts.dflt]) a4 a5 rfl rfl (fun h => absurd h (by decide)) a6 a7 a8

end Verif
