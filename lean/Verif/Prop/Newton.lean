import Verif.NewtonReal
import Mathlib.Analysis.Calculus.Deriv.Polynomial

/-!
# Properties C27–C35: the non-linear solvers
-/

set_option linter.unusedSectionVars false

namespace Verif
section generic
variable {F : Type} [Add F] [Sub F] [Mul F] [Div F] [Neg F] [Scalar F] {n : ℕ}
  {la : LinAlg F} {fn : NFun F n} {x xr : Vec F n} {o : NewtonOpts F} {st0 st : NewtonStatus F} {quiet : Bool}

/-! ### C28 -/

/-- **C28.**  The variant run by `newton_iterate` has exactly the requested flags, for every options value. -/
theorem C28_dispatch (o : NewtonOpts F) (quiet : Bool) :
    newtonSwitch (newtonBits o quiet) =
      { refresh := if 0 < o.refreshJac then 1 else 0, precondition := o.precondition,
        timeInternals := o.timeInternals, limitStep := o.limitStep, quiet := quiet } := by
  unfold newtonBits
  by_cases h : 0 < o.refreshJac <;> cases o.precondition <;> cases o.timeInternals <;>
    cases o.limitStep <;> cases quiet <;> simp [h] <;> rfl

theorem refresh_le (o : NewtonOpts F) (quiet : Bool) : (newtonSwitch (newtonBits o quiet)).refresh ≤ 3 := by
  rw [C28_dispatch]; simp only; split_ifs <;> decide

theorem refresh_iff (o : NewtonOpts F) (quiet : Bool) :
    (newtonSwitch (newtonBits o quiet)).refresh ≠ 0 ↔ 0 < o.refreshJac := by
  rw [C28_dispatch]; simp only; split_ifs with h <;> simp [h]

/-! ### C27 -/

/-- one Newton update from `x` to `x'` with direction `d` and matrix `J`: `d = -z` where `z` is the solver's answer for
`J z = f x` (or the row-scaled system), possibly shortened if `max_step` is set; `x' = x + λ d` with `λ = 1`, or
`1/(1+|f x|²)` when `limit_step` is set -/
def IsNewtonUpdate (solve : Mat F n → Vec F n → Option (Vec F n)) (f : Vec F n → Vec F n)
    (precondition limitStep : Bool) (maxStep : F) (J : Mat F n) (x d x' : Vec F n) : Prop :=
  ∃ (z : Vec F n) (S : Mat F n),
    (∀ i, S i i = if eqb (J i i) (lit 0) then lit 1 else lit 1 / J i i) ∧
    (∀ i j, i ≠ j → S i j = lit 0) ∧
    (if precondition then solve (matMul S J) (mulVec S (f x)) else solve J (f x)) = some z ∧
    ((d = fun i => - z i) ∨ (ltb (lit 0) maxStep = true ∧ ∃ c : F, d = fun i => (- z i) * c)) ∧
    x' = fun i => x i + (if limitStep then lit 1 / (lit 1 + dot (f x) (f x)) else lit 1) * d i

theorem upd_isNewtonUpdate (hms : ltb (lit 0 : F) (- lit 1) = false) {x0 d x' : Vec F n}
    (h : NewtonUpd la (newtonSwitch (newtonBits o quiet)) fn o x0 x d x') :
    IsNewtonUpdate la.solve fn.fn o.precondition o.limitStep o.maxStep
      (if 0 < o.refreshJac then fn.jac x else fn.jac x0) x d x' := by
  obtain ⟨z, h1, h2, h3⟩ := h
  have hJ : curJac (newtonSwitch (newtonBits o quiet)) fn x0 x =
      if 0 < o.refreshJac then fn.jac x else fn.jac x0 := by
    unfold curJac
    by_cases hr : 0 < o.refreshJac
    · rw [if_pos ((refresh_iff o quiet).mpr hr), if_pos hr]
    · rw [if_neg (fun hc => hr ((refresh_iff o quiet).mp hc)), if_neg hr]
  rw [hJ] at h1
  have hl : newtonLambda (newtonSwitch (newtonBits o quiet)) (dot (fn.fn x) (fn.fn x)) =
      if o.limitStep then lit 1 / (lit 1 + dot (fn.fn x) (fn.fn x)) else lit 1 := by
    rw [C28_dispatch]; rfl
  rw [hl] at h2 h3
  refine ⟨z, scaleMat (if 0 < o.refreshJac then fn.jac x else fn.jac x0), fun i => by simp [scaleMat, precondDiag], fun i j hij => by
    simp [scaleMat, precondDiag, hij, zeroMat], ?_, ?_, h3⟩
  · rw [C28_dispatch] at h1; exact h1
  · rw [h2]
    unfold limitDir maxStep2
    by_cases hm : ltb (lit 0) o.maxStep = true
    · rw [if_pos hm]
      simp only
      by_cases h4 : ltb (lit 0) (o.maxStep * o.maxStep) = true
      · rw [if_pos h4]
        generalize (if o.limitStep = true then lit 1 / (lit 1 + dot (fn.fn x) (fn.fn x)) else lit 1 : F) = lam
        split_ifs
        · exact Or.inr ⟨hm, _, rfl⟩
        · exact Or.inl rfl
      · rw [if_neg h4]; exact Or.inl rfl
    · rw [if_neg hm, hms]
      exact Or.inl rfl

/-- **C27 (termination).**  `newton_iterate` always returns. -/
theorem C27_returns (la : LinAlg F) (fn : NFun F n) (x : Vec F n) (o : NewtonOpts F) (st0 : NewtonStatus F)
    (quiet : Bool) : ∃ xr st, newtonIterate la fn x o st0 quiet = some (.ret (xr, st)) :=
  newtonImpl_returns ..

/-- **C27.**  In any arithmetic: the result of `newton_iterate` with `maxit ≥ 0` is described by a sequence of Newton
updates `xs 0, …, xs iters`; at most `maxit` are made; SUCCESS means that the last one (and no earlier one) has an
increment below `dx_delta`, that fewer than `maxit` were needed, that the residual is finite and that the last iterate
is returned; with any other status the initial guess is returned.  (`hms`: `0 < -1` is false.) -/
theorem C27_success (hms : ltb (lit 0 : F) (- lit 1) = false) (hmax : 0 ≤ o.maxit)
    (h : newtonIterate la fn x o st0 quiet = some (.ret (xr, st))) :
    ∃ xs ds : ℕ → Vec F n,
      xs 0 = x ∧
      (∀ k < st.iters, IsNewtonUpdate la.solve fn.fn o.precondition o.limitStep o.maxStep
        (if 0 < o.refreshJac then fn.jac (xs k) else fn.jac x) (xs k) (ds k) (xs (k + 1))) ∧
      (st.iters : ℤ) ≤ o.maxit ∧
      (st.conv = 0 →
        0 < st.iters ∧ (st.iters : ℤ) < o.maxit ∧
        ltb (normInf (ds (st.iters - 1))) o.dxDelta = true ∧
        (∀ k < st.iters - 1, ltb (normInf (ds k)) o.dxDelta = false) ∧
        xr = xs st.iters ∧ st.res = ssqrt (dot (fn.fn xr) (fn.fn xr)) ∧ isFin st.res = true) ∧
      (st.conv ≠ 0 → xr = x ∧ (st.conv = 3 ∨ st.conv = 4)) := by
  obtain ⟨s, xs, ds, hI, hcase⟩ := newtonImpl_trace (refresh_le o quiet) h
  rcases hcase with ⟨hend, hfin⟩ | ⟨hnone, h1, h2, h3, -, -⟩
  · have hit : st.iters = s.iters := by
      have := congrArg (fun p => p.2.iters) hfin; simpa [newtonFinish] using this
    have hconv : st.conv = if isFin (ssqrt s.res2) then (if (s.iters : ℤ) = o.maxit then 3 else 0) else 4 := by
      have := congrArg (fun p => p.2.conv) hfin; simpa [newtonFinish] using this
    have hres : st.res = ssqrt s.res2 := by
      have := congrArg (fun p => p.2.res) hfin; simpa [newtonFinish] using this
    have hxr : xr = if st.conv = 0 then s.xn else x := by
      have := congrArg (fun p => p.1) hfin
      rw [hconv]
      simpa [newtonFinish] using this
    have hle : (s.iters : ℤ) ≤ o.maxit := by
      rcases hI.le with h | h
      · exact h
      · rw [h]; simpa using hmax
    refine ⟨xs, ds, hI.start, fun k hk => upd_isNewtonUpdate hms (hI.upd k (hit ▸ hk)), by rw [hit]; exact hle, ?_,
      ?_⟩
    · intro hc
      rw [hit]
      rw [hc] at hconv
      have hfinite : isFin (ssqrt s.res2) = true := by
        by_contra hc2
        rw [if_neg hc2] at hconv; cases hconv
      rw [if_pos hfinite] at hconv
      have hne : (s.iters : ℤ) ≠ o.maxit := by
        intro hc2
        rw [if_pos hc2] at hconv; cases hconv
      have hlt : (s.iters : ℤ) < o.maxit := lt_of_le_of_ne hle hne
      have hT : s.term = true := by
        by_contra hc2
        exact hend ⟨by simpa using hc2, hlt⟩
      obtain ⟨l1, l2⟩ := hI.last hT
      rw [if_pos hc] at hxr
      exact ⟨l1, hlt, l2, fun k hk => hI.before k (by omega) (fun _ => by omega), by rw [hxr, hI.cur],
        by rw [hres, hI.res, hxr], by rw [hres]; exact hfinite⟩
    · intro hc
      rw [if_neg hc] at hxr
      refine ⟨hxr, ?_⟩
      rw [hconv] at hc ⊢
      split_ifs at hc ⊢
      · exact Or.inl rfl
      · exact absurd rfl hc
      · exact Or.inr rfl
  · have hle : (s.iters : ℤ) ≤ o.maxit := by
      rcases hI.le with h | h
      · exact h
      · rw [h]; simpa using hmax
    refine ⟨xs, ds, hI.start, fun k hk => upd_isNewtonUpdate hms (hI.upd k (h3 ▸ hk)), by rw [h3]; exact hle,
      fun hc => absurd (h2.symm.trans hc) (by decide), fun _ => ⟨h1, Or.inr h2⟩⟩

/-- A run that converges in its last permitted iteration reports MAXIT_EXCEEDED: the status is never SUCCESS when
`iters = maxit`. -/
theorem C27_last_iteration (h : newtonIterate la fn x o st0 quiet = some (.ret (xr, st)))
    (hit : (st.iters : ℤ) = o.maxit) : st.conv ≠ 0 := by
  obtain ⟨s, xs, ds, hI, hcase⟩ := newtonImpl_trace (refresh_le o quiet) h
  rcases hcase with ⟨hend, hfin⟩ | ⟨hnone, h1, h2, h3, -, -⟩
  · have hit' : st.iters = s.iters := by
      have := congrArg (fun p => p.2.iters) hfin; simpa [newtonFinish] using this
    have hconv : st.conv = if isFin (ssqrt s.res2) then (if (s.iters : ℤ) = o.maxit then 3 else 0) else 4 := by
      have := congrArg (fun p => p.2.conv) hfin; simpa [newtonFinish] using this
    rw [hconv, ← hit', if_pos hit]
    split_ifs <;> decide
  · rw [h2]; decide

/-- The option `tol` has no influence on `newton_iterate`. -/
theorem C27_tol_unused (la : LinAlg F) (fn : NFun F n) (x : Vec F n) (o : NewtonOpts F) (st0 : NewtonStatus F)
    (quiet : Bool) (a : F) :
    newtonIterate la fn x { o with tol := a } st0 quiet = newtonIterate la fn x o st0 quiet := rfl

/-- With `maxit < 0` SUCCESS is reported without any iteration (if the residual is finite). -/
theorem C27_negative_maxit (hmax : o.maxit < 0) (hf : isFin (ssqrt (dot (fn.fn x) (fn.fn x))) = true) :
    ∃ st, newtonIterate la fn x o st0 quiet = some (.ret (x, st)) ∧ st.conv = 0 ∧ st.iters = 0 := by
  have h0 : ¬ ((newtonInit la fn x (newtonSwitch (newtonBits o quiet))).term = false ∧
      (((newtonInit la fn x (newtonSwitch (newtonBits o quiet))).iters : ℕ) : ℤ) < o.maxit) := by
    simp [newtonInit]; omega
  have hne : ¬ (((newtonInit la fn x (newtonSwitch (newtonBits o quiet))).iters : ℕ) : ℤ) = o.maxit := by
    simp [newtonInit]; omega
  refine ⟨{ conv := 0, res := ssqrt (dot (fn.fn x) (fn.fn x)), iters := 0, etaFinal := lit 1, jacCalls := 1,
            funCalls := 1 }, ?_, rfl, rfl⟩
  · unfold newtonIterate newtonImpl runLoop newtonBody
    rw [if_neg h0]
    have : newtonFinish x o (newtonInit la fn x (newtonSwitch (newtonBits o quiet))) =
      (x, { conv := 0, res := ssqrt (dot (fn.fn x) (fn.fn x)), iters := 0, etaFinal := lit 1, jacCalls := 1,
            funCalls := 1 }) := by
      unfold newtonFinish
      simp only [if_neg hne]
      simp [newtonInit, hf]
    rw [this]

/-- The Jacobian is evaluated once before the loop and, if `refresh_jac > 0`, once per iteration whatever the value of
`refresh_jac`; the residual is evaluated once before and once per iteration. -/
theorem C28_evaluations (h : newtonIterate la fn x o st0 quiet = some (.ret (xr, st))) :
    st.jacCalls = (if 0 < o.refreshJac then st.iters + 1 else 1) ∧ st.funCalls = st.iters + 1 := by
  obtain ⟨s, xs, ds, hI, hcase⟩ := newtonImpl_trace (refresh_le o quiet) h
  have hj := hI.jacs
  have hf := hI.funs
  have key : s.jacCalls = (if 0 < o.refreshJac then s.iters + 1 else 1) := by
    rw [hj]
    by_cases hr : 0 < o.refreshJac
    · rw [if_pos ((refresh_iff o quiet).mpr hr), if_pos hr]
    · rw [if_neg (fun hc => hr ((refresh_iff o quiet).mp hc)), if_neg hr]
  rcases hcase with ⟨hend, hfin⟩ | ⟨hnone, h1, h2, h3, h4, h5⟩
  · have h3 : st.iters = s.iters := by
      have := congrArg (fun p => p.2.iters) hfin; simpa [newtonFinish] using this
    have h4 : st.jacCalls = s.jacCalls := by
      have := congrArg (fun p => p.2.jacCalls) hfin; simpa [newtonFinish] using this
    have h5 : st.funCalls = s.funCalls := by
      have := congrArg (fun p => p.2.funCalls) hfin; simpa [newtonFinish] using this
    rw [h3, h4, h5]; exact ⟨key, hf⟩
  · rw [h3, h4, h5]; exact ⟨key, hf⟩

/-! ### C34 -/

/-- **C34 is false**, for every functor and point, in any arithmetic where `sqrt(0) > 1e-12` is false: the check
returns `true`. -/
theorem C34_always_true (h0 : ltb (lit (1 / 10 ^ 12) : F) (ssqrt (lit 0)) = false) (fn : NFun F n) (y : Vec F n) :
    verifyJacobi fn y = true := by
  have h1 : ∀ (l : List (Fin n)) (md : F) (g : F → Fin n → F), (∀ a i, g a i = a) → l.foldl g md = md := by
    intro l md g hg
    induction l generalizing md with
    | nil => rfl
    | cons a l ih => rw [List.foldl_cons, hg, ih]
  unfold verifyJacobi
  simp only
  rw [h1 _ _ _ (fun a i => h1 _ _ _ (fun _ _ => rfl)), h0]
  rfl

/-! ### C35, evaluation points -/

theorem approxJacobi_foldl (f : Vec F n → Vec F n) (y : Vec F n) (h : F) (l : List (Fin n)) (M : Mat F n)
    (c : List (Vec F n)) :
    l.foldl (approxJacobiStep f y h)
      (y, y, M, c) =
    (y, y, (fun i k => if k ∈ l then
      (f (Function.update y k (y k + h)) i - f (Function.update y k (y k - h)) i) / (lit 2 * h) else M i k),
      c ++ l.flatMap (fun j => [Function.update y j (y j + h), Function.update y j (y j - h)])) := by
  induction l generalizing M c with
  | nil => simp
  | cons a l ih =>
    rw [List.foldl_cons]
    have e : approxJacobiStep f y h (y, y, M, c) a = (y, y,
        (fun i k => if k = a then (f (Function.update y a (y a + h)) i - f (Function.update y a (y a - h)) i) /
          (lit 2 * h) else M i k), c ++ [Function.update y a (y a + h), Function.update y a (y a - h)]) := by
      simp only [approxJacobiStep, Function.update_idem, Function.update_eq_self]
    rw [e, ih]
    refine Prod.ext rfl (Prod.ext rfl (Prod.ext ?_ ?_))
    · funext i k
      by_cases hk : k ∈ l
      · simp [hk]
      · by_cases ha : k = a
        · subst ha; simp [hk]
        · simp [hk, ha]
    · simp

/-- **C35 (entries).**  Every entry is the central difference of the function at `y ± h e_j`. -/
theorem C35_entries (f : Vec F n → Vec F n) (y : Vec F n) (h : F) (i j : Fin n) :
    approxJacobi f y h i j =
      (f (Function.update y j (y j + h)) i - f (Function.update y j (y j - h)) i) / (lit 2 * h) := by
  unfold approxJacobi approxJacobiLoop
  rw [approxJacobi_foldl]
  simp

/-- **C35 (evaluation points).**  The function is evaluated at `y`, then at `y + h e_j` and `y - h e_j` for every `j`. -/
theorem C35_points (f : Vec F n → Vec F n) (y : Vec F n) (h : F) :
    (approxJacobiLoop f y h).2.2.2 = y :: (List.finRange n).flatMap (fun j =>
      [Function.update y j (y j + h), Function.update y j (y j - h)]) := by
  unfold approxJacobiLoop
  rw [approxJacobi_foldl]
  rfl

end generic

/-! ### Exact arithmetic -/

section real
variable {n : ℕ} {la : LinAlg ℝ} {fn : NFun ℝ n} {x : Vec ℝ n} {o : NewtonOpts ℝ} {st0 : NewtonStatus ℝ}

/-- **C34, the claim** -/
def C34_claim : Prop := ∀ (n : ℕ) (fn : NFun ℝ n) (y : Vec ℝ n),
  (∃ i j, approxJacobi fn.fn y (lit (1 / 10 ^ 4)) i j ≠ fn.jac y i j) → verifyJacobi fn y = false

theorem C34_refuted : ¬ C34_claim := by
  intro h
  have h1 := h 1 ⟨fun y => y, fun _ _ _ => 0⟩ (fun _ => 0) ⟨0, 0, by rw [C35_entries]; norm_num⟩
  rw [C34_always_true (by simp)] at h1
  cases h1

open Polynomial in
/-- **C35.**  If the `i`-th component restricted to the line through `y` in direction `e_j` is a polynomial of degree at
most 2, the entry is its derivative at `y`, for every `h ≠ 0`. -/
theorem C35_quadratic_exact {f : Vec ℝ n → Vec ℝ n} {y : Vec ℝ n} {h : ℝ} (hh : h ≠ 0) {i j : Fin n} {p : ℝ[X]}
    (hp : p.natDegree ≤ 2) (hf : ∀ s, f (Function.update y j s) i = p.eval s) :
    HasDerivAt (fun s => f (Function.update y j s) i) (approxJacobi f y h i j) (y j) := by
  have e : (fun s => f (Function.update y j s) i) = fun s => p.eval s := funext hf
  rw [e]
  suffices hs : approxJacobi f y h i j = p.derivative.eval (y j) by
    rw [hs]; exact p.hasDerivAt (y j)
  rw [C35_entries, hf, hf]
  have hev : ∀ s, p.eval s = p.coeff 0 + p.coeff 1 * s + p.coeff 2 * s ^ 2 := by
    intro s
    rw [Polynomial.eval_eq_sum_range' (lt_of_le_of_lt hp (by norm_num : 2 < 3))]
    simp [Finset.sum_range_succ]
  have hdv : p.derivative.eval (y j) = p.coeff 1 + 2 * p.coeff 2 * y j := by
    rw [Polynomial.eval_eq_sum_range' (n := 2)
      (lt_of_le_of_lt (Polynomial.natDegree_derivative_le p) (by omega))]
    simp only [Finset.sum_range_succ, Polynomial.coeff_derivative, Finset.range_zero, Finset.sum_empty]
    push_cast
    ring
  rw [hdv, hev, hev, lit_real]
  push_cast
  field_simp
  ring

/-- **C35 (quadratic maps).**  For `F_i(x) = c_i + Σ b_ij x_j + Σ q_ijk x_j x_k` the result is the true Jacobian. -/
theorem C35_quadratic_map (c : Fin n → ℝ) (b : Fin n → Fin n → ℝ) (q : Fin n → Fin n → Fin n → ℝ)
    (y : Vec ℝ n) {h : ℝ} (hh : h ≠ 0) (i j : Fin n) :
    approxJacobi (fun x i => c i + ∑ j, b i j * x j + ∑ j, ∑ k, q i j k * x j * x k) y h i j =
      b i j + ∑ k, (q i j k + q i k j) * y k := by
  rw [C35_entries]
  have hu : ∀ e : ℝ, Function.update y j (y j + e) = fun k => y k + (if k = j then e else 0) := by
    intro e; funext k
    by_cases hk : k = j
    · subst hk; simp
    · simp [hk]
  have key : ∀ e : ℝ, c i + ∑ l, b i l * (y l + if l = j then e else 0) +
      ∑ l, ∑ k, q i l k * (y l + if l = j then e else 0) * (y k + if k = j then e else 0) =
      (c i + ∑ l, b i l * y l + ∑ l, ∑ k, q i l k * y l * y k) +
      e * (b i j + ∑ k, (q i j k + q i k j) * y k) + e ^ 2 * q i j j := by
    intro e
    have h1 : ∑ l, b i l * (y l + if l = j then e else 0) = ∑ l, b i l * y l + e * b i j := by
      simp only [mul_add, Finset.sum_add_distrib, mul_ite, mul_zero, Finset.sum_ite_eq', Finset.mem_univ, if_true]
      ring
    have h2 : ∀ l, ∑ k, q i l k * (y l + if l = j then e else 0) * (y k + if k = j then e else 0) =
        ∑ k, q i l k * y l * y k + e * (q i l j * y l) + (if l = j then e * ∑ k, q i j k * y k + e ^ 2 * q i j j
          else 0) := by
      intro l
      simp only [mul_add, Finset.sum_add_distrib, mul_ite, mul_zero, Finset.sum_ite_eq', Finset.mem_univ, if_true]
      by_cases hl : l = j
      · subst hl
        simp only [if_true, Finset.mul_sum, add_mul, Finset.sum_add_distrib]
        have : ∀ k, q i l k * e * y k = e * (q i l k * y k) := fun k => by ring
        simp only [this]
        ring
      · simp only [hl, if_false, add_zero]
        ring
    rw [h1]
    simp only [h2]
    rw [Finset.sum_add_distrib, Finset.sum_add_distrib, Finset.sum_ite_eq' Finset.univ j]
    simp only [Finset.mem_univ, if_true, add_mul, Finset.sum_add_distrib, Finset.mul_sum]
    rw [mul_add, mul_add, Finset.mul_sum, Finset.mul_sum]
    ring
  have e1 : y j - h = y j + (-h) := sub_eq_add_neg _ _
  rw [e1]
  simp only [hu, key]
  rw [lit_real]
  push_cast
  field_simp
  ring

/-! ### C29 -/

theorem newton_res2_nonneg {fl : NewtonFlags} {s : NewtonState ℝ n}
    (hr : Reach (newtonBody la fn x o fl st0) (newtonInit la fn x fl) s) : 0 ≤ s.res2 := by
  refine hr.inv (Inv := fun s => 0 ≤ s.res2) (dot_self_nonneg _) ?_
  intro a b _ hb
  obtain ⟨lup, d, -, -, -, h4⟩ := newtonBody_next_eq hb
  rw [h4]
  exact dot_self_nonneg _

/-- **C29 (Newton).**  With `max_step > 0` every update made by `newton_iterate_impl`, with any flags, has Euclidean
length at most `max_step`. -/
theorem C29_newton_step_bound {fl : NewtonFlags} (hm : 0 < o.maxStep) {s s' : NewtonState ℝ n}
    (hr : Reach (newtonBody la fn x o fl st0) (newtonInit la fn x fl) s)
    (hs : newtonBody la fn x o fl st0 s = .next s') :
    Real.sqrt (∑ i, (s'.xn i - s.xn i) ^ 2) ≤ o.maxStep := by
  have h0 := newton_res2_nonneg hr
  have hl := newtonLambda_pos fl h0
  have hms : maxStep2 o = o.maxStep * o.maxStep := by
    unfold maxStep2; rw [if_pos (by simpa using hm)]
  obtain ⟨lup, d, -, h2, -, -⟩ := newtonBody_next_eq hs
  rw [Real.sqrt_le_left hm.le, sq]
  have := limitDir_le (ms2 := maxStep2 o) (by rw [hms]; positivity) hl d
  rw [← hms, h2]
  simpa using this

/-- **C29, the claim for Broyden** -/
def C29_broyden_claim : Prop :=
  ∀ (n : ℕ) (fn : Vec ℝ n → Vec ℝ n) (x : Vec ℝ n) (o : NewtonOpts ℝ) (st0 : NewtonStatus ℝ)
    (s s' : BroydenState ℝ n), 0 < o.maxStep → Reach (broydenBody fn o st0) (broydenInit fn x) s →
    broydenBody fn o st0 s = .next s' → Real.sqrt (∑ i, (s'.x i - s.x i) ^ 2) ≤ o.maxStep

theorem broyden_lambda_pos {res2 : ℝ} (h : 0 ≤ res2) : 0 < broydenLambda res2 := by
  unfold broydenLambda
  simp only [lit_real, ssqrt_real, Rat.cast_one]
  positivity

theorem broyden_next {fn : Vec ℝ n → Vec ℝ n} {s s' : BroydenState ℝ n}
    (hs : broydenBody fn o st0 s = .next s') :
    (s'.x = fun i => s.x i + broydenDir o s i) ∧ s'.f0 = fn s'.x ∧ s'.res2 = dot s'.f0 s'.f0 ∧
    s'.Jaci = broydenUpdate s.Jaci (fun i => s'.x i - s.x i) (fun i => s'.f0 i - s.f0 i) := by
  unfold broydenBody at hs
  split_ifs at hs
  simp only [LoopStep.next.injEq] at hs
  rw [← hs]
  exact ⟨rfl, rfl, rfl, rfl⟩

theorem broyden_res2_nonneg {fn : Vec ℝ n → Vec ℝ n} {s : BroydenState ℝ n}
    (hr : Reach (broydenBody fn o st0) (broydenInit fn x) s) : 0 ≤ s.res2 := by
  refine hr.inv (Inv := fun s => 0 ≤ s.res2) (dot_self_nonneg _) ?_
  intro a b _ hb
  rw [(broyden_next hb).2.2.1]
  exact dot_self_nonneg _

/-- **C29 (Broyden), what holds**: the length is at most `max_step * sqrt(1 + |F(x)|²)`.  Missing: the bound `max_step`,
see `C29_refuted`. -/
theorem C29_broyden_step_partial {fn : Vec ℝ n → Vec ℝ n} (hm : 0 < o.maxStep) {s s' : BroydenState ℝ n}
    (hr : Reach (broydenBody fn o st0) (broydenInit fn x) s) (hs : broydenBody fn o st0 s = .next s') :
    Real.sqrt (∑ i, (s'.x i - s.x i) ^ 2) ≤ o.maxStep * Real.sqrt (1 + s.res2) := by
  have h0 := broyden_res2_nonneg hr
  have hl := broyden_lambda_pos h0
  have hms : maxStep2 o = o.maxStep * o.maxStep := by
    unfold maxStep2; rw [if_pos (by simpa using hm)]
  have hle := limitDir_le (ms2 := maxStep2 o) (by rw [hms]; positivity) hl
    (fun i => (- broydenLambda s.res2) * mulVec s.Jaci s.f0 i)
  have hx := (broyden_next hs).1
  have e : ∀ i, s'.x i - s.x i = broydenDir o s i := by intro i; rw [hx]; ring
  simp only [e]
  have hsq : Real.sqrt (1 + s.res2) = 1 / broydenLambda s.res2 := by
    unfold broydenLambda; simp
  rw [hsq, Real.sqrt_le_left (by positivity)]
  have hd : ∑ i, (broydenLambda s.res2 * broydenDir o s i) ^ 2 ≤ o.maxStep * o.maxStep := by
    rw [← hms]; exact hle
  have : ∑ i, (broydenLambda s.res2 * broydenDir o s i) ^ 2 =
      broydenLambda s.res2 ^ 2 * ∑ i, broydenDir o s i ^ 2 := by
    rw [Finset.mul_sum]; exact Finset.sum_congr rfl fun i _ => by ring
  rw [this] at hd
  rw [mul_pow, div_pow, one_pow, mul_one_div, le_div_iff₀ (by positivity)]
  nlinarith

/-! ### C30 -/

/-- **C30.**  Newton's method solves an invertible affine system exactly in at most two iterations, for every setting of
the Jacobian refresh and preconditioning. -/
theorem C30_affine (hla : la.Exact) {M : Mat ℝ n} {q : Vec ℝ n} (hM : IsUnit (Matrix.of M).det)
    (hf : ∀ z, fn.fn z = fun i => (Matrix.of M).mulVec z i + q i) (hj : ∀ z, fn.jac z = M)
    (hlim : o.limitStep = false) (hms : o.maxStep ≤ 0) (hdx : 0 < o.dxDelta) (hmax : 3 ≤ o.maxit) (quiet : Bool) :
    ∃ xr st, newtonIterate la fn x o st0 quiet = some (.ret (xr, st)) ∧ st.conv = 0 ∧ st.iters ≤ 2 ∧
      fn.fn xr = 0 ∧ ∀ z, fn.fn z = 0 → z = xr := by
  obtain ⟨xr, st, h⟩ := C27_returns la fn x o st0 quiet
  refine ⟨xr, st, h, ?_⟩
  obtain ⟨s, xs, ds, hI, hcase⟩ := newtonImpl_trace (refresh_le o quiet) h
  set fl := newtonSwitch (newtonBits o quiet) with hfl
  have hcur : ∀ a b, curJac fl fn a b = M := by
    intro a b; unfold curJac; split_ifs <;> exact hj _
  have hsolve : ∀ r : Vec ℝ n, la.solve M r = some ((Matrix.of M)⁻¹.mulVec r) := fun r => hla.solve M r hM
  have hpre : ∀ r : Vec ℝ n, la.solve (matMul (scaleMat M) M) (mulVec (scaleMat M) r) =
      some ((Matrix.of M)⁻¹.mulVec r) := fun r => by rw [precond_solve hla hM, hsolve]
  have hlam : ∀ r2, newtonLambda fl r2 = (1 : ℝ) := by
    intro r2; unfold newtonLambda; rw [hfl, C28_dispatch]; simp [hlim]
  have hms2 : maxStep2 o = -1 := by
    unfold maxStep2; rw [if_neg (by simpa using hms)]; simp
  -- every update lands on the root
  have hroot : ∀ k < s.iters, ds k = (fun i => - (Matrix.of M)⁻¹.mulVec (fn.fn (xs k)) i) ∧
      fn.fn (xs (k + 1)) = 0 := by
    intro k hk
    obtain ⟨z, h1, h2, h3⟩ := hI.upd k hk
    rw [hcur, hpre, hsolve] at h1
    have hz : z = (Matrix.of M)⁻¹.mulVec (fn.fn (xs k)) := by
      split_ifs at h1 <;> simpa using h1.symm
    rw [hms2, limitDir_off (by norm_num)] at h2
    rw [hlam] at h3
    refine ⟨by rw [h2, hz], ?_⟩
    have hx1 : xs (k + 1) = xs k - (Matrix.of M)⁻¹.mulVec (fn.fn (xs k)) := by
      rw [h3, h2, hz]; funext i; simp; ring
    rw [hf, hx1, Matrix.mulVec_sub, Matrix.mulVec_mulVec, Matrix.mul_nonsing_inv _ hM, Matrix.one_mulVec, hf]
    funext i; simp
  have hit2 : s.iters ≤ 2 := by
    by_contra hc
    have h1 := hroot 0 (by omega)
    have h2 := hroot 1 (by omega)
    have hd : ds 1 = fun _ => 0 := by
      rw [h2.1]; funext i
      have := h1.2
      simp only [zero_add] at this
      rw [this]; simp
    have := hI.before 1 (by omega) (fun _ => by omega)
    rw [hd, normInf_zero] at this
    simp at this
    linarith
  have hlt : (s.iters : ℤ) < o.maxit := by omega
  rcases hcase with ⟨hend, hfin⟩ | ⟨hnone, -⟩
  · have hT : s.term = true := by
      by_contra hc
      exact hend ⟨by simpa using hc, hlt⟩
    have hit : st.iters = s.iters := by
      have := congrArg (fun p => p.2.iters) hfin; simpa [newtonFinish] using this
    have hfe : newtonFinish x o s =
        (s.xn, ⟨0, ssqrt s.res2, s.iters, lit 1, s.jacCalls, s.funCalls⟩) := by
      unfold newtonFinish
      simp [hlt.ne]
    rw [hfe] at hfin
    have hxr : xr = s.xn := congrArg Prod.fst hfin
    have hst : st.conv = 0 := congrArg (fun p => p.2.conv) hfin
    have hpos := (hI.last hT).1
    have hz := (hroot (s.iters - 1) (by omega)).2
    rw [Nat.sub_add_cancel hpos, hI.cur] at hz
    refine ⟨hst, by omega, by rw [hxr]; exact hz, fun z hz0 => ?_⟩
    have heq : (Matrix.of M).mulVec z = (Matrix.of M).mulVec xr := by
      funext i
      have a := congrFun (hf z) i
      have b := congrFun (hf xr) i
      rw [hz0] at a
      rw [hxr, hz, ← hxr] at b
      simp only [Pi.zero_apply] at a b
      linarith
    have := congrArg ((Matrix.of M)⁻¹.mulVec) heq
    simpa [Matrix.mulVec_mulVec, Matrix.nonsing_inv_mul _ hM] using this
  · exfalso
    obtain ⟨L, U, P, hlup, hP⟩ := hI.lup
    have hJ := hI.J
    rw [hcur] at hJ
    unfold newtonDir at hnone
    cases hp : fl.precondition with
    | true => simp [hp, hlup, precondDiag_eq hP, hJ, hpre] at hnone
    | false =>
      have := refresh_le o quiet
      rw [← hfl] at this
      simp [hp, this, hJ, hsolve] at hnone

/-! ### C29, refutation -/

/-- options of the witnesses -/
noncomputable def nOpts (maxStep : ℝ) (maxit : ℤ) : NewtonOpts ℝ :=
  { tol := 1 / 10, dxDelta := 1 / 10, maxit := maxit, timeInternals := false, maxStep := maxStep, refreshJac := 1,
    precondition := false, limitStep := false }

/-- a status to start from -/
noncomputable def nStat : NewtonStatus ℝ := { conv := 0, res := 0, iters := 0, etaFinal := 0 }

/-- **C29 is false for Broyden**: with `max_step = 1/4` the first step for `F(x) = (1,1,1)` has length `1/2`. -/
theorem C29_refuted : ¬ C29_broyden_claim := by
  intro h
  have hl : broydenLambda (3 : ℝ) = 1 / 2 := by
    unfold broydenLambda
    rw [lit_real, ssqrt_real]
    have : (((1 : ℚ) : ℝ) + 3) = 2 ^ 2 := by norm_num
    rw [this, Real.sqrt_sq (by norm_num)]; norm_num
  have h3 : dot (fun _ : Fin 3 => (1 : ℝ)) (fun _ => 1) = 3 := by rw [dot_real]; simp
  have hJ : mulVec (eye 3 : Mat ℝ 3) (fun _ => 1) = fun _ => 1 := by
    rw [mulVec_real]
    have : Matrix.of (eye 3 : Mat ℝ 3) = 1 := by
      ext i j; simp [eye, Matrix.one_apply]
    rw [this, Matrix.one_mulVec]
  have hd : broydenDir (nOpts (1 / 4) 5) (broydenInit (fun _ => fun _ : Fin 3 => (1 : ℝ)) 0) =
      fun _ => -Real.sqrt (1 / 12) := by
    unfold broydenDir
    simp only [broydenInit, h3, hl, hJ]
    unfold limitDir maxStep2
    have : dot (fun _ : Fin 3 => -(1 / 2 : ℝ) * 1) (fun _ => -(1 / 2) * 1) = 3 / 4 := by
      rw [dot_real]; simp; norm_num
    simp only [this]
    rw [if_pos (show ltb (lit 0) (nOpts (1 / 4) 5).maxStep = true by simp [nOpts])]
    rw [if_pos (by simp [nOpts]), if_pos (by simp [nOpts]; norm_num)]
    funext i
    simp only [nOpts, ssqrt_real]
    have e : (1 / 4 * (1 / 4) / (3 / 4) : ℝ) = 1 / 12 := by norm_num
    rw [e]; ring
  have hx := h 3 (fun _ => fun _ => 1) 0 (nOpts (1 / 4) 5) nStat _ _ (by norm_num [nOpts]) .refl
    (by unfold broydenBody; rw [if_pos ⟨rfl, by simp [broydenInit, nOpts]⟩])
  simp only [hd] at hx
  have e : ∑ i : Fin 3, ((broydenInit (fun _ => fun _ : Fin 3 => (1 : ℝ)) 0).x i + -Real.sqrt (1 / 12) -
      (broydenInit (fun _ => fun _ : Fin 3 => (1 : ℝ)) 0).x i) ^ 2 = (1 / 2) ^ 2 := by
    have : ∀ i : Fin 3, ((broydenInit (fun _ => fun _ : Fin 3 => (1 : ℝ)) 0).x i + -Real.sqrt (1 / 12) -
      (broydenInit (fun _ => fun _ : Fin 3 => (1 : ℝ)) 0).x i) ^ 2 = 1 / 12 := by
      intro i
      have : ∀ a b : ℝ, (a + -b - a) ^ 2 = b ^ 2 := fun a b => by ring
      rw [this, Real.sq_sqrt (by norm_num)]
    simp only [this]
    simp; norm_num
  rw [e, Real.sqrt_sq (by norm_num)] at hx
  norm_num [nOpts] at hx

/-! ### C31 -/

/-- **C31.**  With an exact linear solver and invertible Jacobians, preconditioning changes nothing. -/
theorem C31_precondition_irrelevant (hla : la.Exact) (hJ : ∀ z, IsUnit (Matrix.of (fn.jac z)).det) (quiet : Bool) :
    newtonIterate la fn x { o with precondition := true } st0 quiet =
      newtonIterate la fn x { o with precondition := false } st0 quiet := by
  unfold newtonIterate
  rw [C28_dispatch, C28_dispatch]
  simp only
  unfold newtonImpl
  set fl1 : NewtonFlags :=
    ⟨if 0 < o.refreshJac then 1 else 0, true, o.timeInternals, o.limitStep, quiet⟩ with hfl1
  set fl2 : NewtonFlags :=
    ⟨if 0 < o.refreshJac then 1 else 0, false, o.timeInternals, o.limitStep, quiet⟩ with hfl2
  have hr1 : ¬ 3 < fl1.refresh := by rw [hfl1]; simp only; split_ifs <;> decide
  have hr2 : ¬ 3 < fl2.refresh := by rw [hfl2]; simp only; split_ifs <;> decide
  have hsim := runLoop_sim
    (body := newtonBody la fn x { o with precondition := true } fl1 st0)
    (body' := newtonBody la fn x { o with precondition := false } fl2 st0)
    (Sim := fun s s' => s = { s' with lup := s.lup } ∧ IsUnit (Matrix.of s.J).det ∧
      ∃ L U P, s.lup = some (L, U, P) ∧ ∀ i j, i ≠ j → P i j = lit 0)
    (P := fun r r' => r = r') ?_ (o.maxit.toNat + 1)
    (s := newtonInit la fn x fl1) (s' := newtonInit la fn x fl2) ?_
  · rcases hsim with ⟨a, b⟩ | ⟨r, r', a, b, c⟩
    · rw [a, b]
    · rw [a, b, c]
  · rintro s s' ⟨hs, hu, L, U, P, hlup, hP⟩
    have e1 : s.xn = s'.xn := by rw [hs]
    have e2 : s.r = s'.r := by rw [hs]
    have e3 : s.res2 = s'.res2 := by rw [hs]
    have e4 : s.J = s'.J := by rw [hs]
    have e5 : s.iters = s'.iters := by rw [hs]
    have e6 : s.term = s'.term := by rw [hs]
    have e7 : s.jacCalls = s'.jacCalls := by rw [hs]
    have e8 : s.funCalls = s'.funCalls := by rw [hs]
    unfold newtonBody
    rw [e5, e6]
    by_cases hc : s'.term = false ∧ (s'.iters : ℤ) < o.maxit
    · rw [if_pos hc, if_pos hc]
      have hd1 : newtonDir la fl1 s = some (some (L, U, scaleMat s.J), fun i => - (Matrix.of s.J)⁻¹.mulVec s.r i) := by
        unfold newtonDir
        simp only [hfl1, if_true, hlup, precondDiag_eq hP, precond_solve hla hu, hla.solve _ _ hu]
      have hd2 : newtonDir la fl2 s' = some (s'.lup, fun i => - (Matrix.of s.J)⁻¹.mulVec s.r i) := by
        unfold newtonDir
        rw [if_neg (by rw [hfl2]; simp), if_pos (not_lt.mp hr2), ← e4, ← e2, hla.solve _ _ hu]
      simp only [hd1, hd2]
      refine .next ⟨?_, ?_, L, U, scaleMat s.J, ?_, ?_⟩
      · simp only [hfl1, hfl2, e1, e3, e4, e7, e8, newtonLambda, maxStep2]
      · simp only
        split_ifs
        · exact hJ _
        · exact hu
      · simp only [if_neg hr1]
      · intro i j hij; simp [scaleMat, precondDiag, hij, zeroMat]
    · rw [if_neg hc, if_neg hc]
      refine .done ?_
      simp only [newtonFinish, e1, e3, e5, e7, e8]
  · refine ⟨?_, hJ x, zeroMat n, zeroMat n, zeroMat n, ?_, fun _ _ _ => rfl⟩
    · rfl
    · simp only [newtonInit, if_neg hr1]

/-! ### C32 -/

/-- **C32.**  After every Broyden update with non-zero denominator the new inverse-Jacobian approximation maps the
change of the residual to the change of `x`. -/
theorem C32_secant {fn : Vec ℝ n → Vec ℝ n} {s s' : BroydenState ℝ n}
    (hs : broydenBody fn o st0 s = .next s')
    (hne : ∑ j, (∑ i, (s'.x i - s.x i) * s.Jaci i j) * (s'.f0 j - s.f0 j) ≠ 0) :
    (Matrix.of s'.Jaci).mulVec (s'.f0 - s.f0) = s'.x - s.x := by
  have hJ := (broyden_next hs).2.2.2
  set dx : Vec ℝ n := fun i => s'.x i - s.x i with hdx
  set df : Vec ℝ n := fun i => s'.f0 i - s.f0 i with hdf
  have hx : s'.x - s.x = dx := rfl
  have hf : s'.f0 - s.f0 = df := rfl
  rw [hx, hf, hJ]
  funext i
  have hnorm : dot (vecMul dx s.Jaci) df = ∑ j, (∑ i, dx i * s.Jaci i j) * df j := by
    rw [dot_real]; exact Finset.sum_congr rfl fun j _ => by unfold vecMul; rw [sumFin_real]
  have hne' : dot (vecMul dx s.Jaci) df ≠ 0 := by rw [hnorm]; exact hne
  simp only [Matrix.mulVec, dotProduct, Matrix.of_apply, broydenUpdate]
  have e : ∀ j, (s.Jaci i j + (dx i - mulVec s.Jaci df i) * vecMul dx s.Jaci j / dot (vecMul dx s.Jaci) df) * df j =
      s.Jaci i j * df j + (dx i - mulVec s.Jaci df i) / dot (vecMul dx s.Jaci) df *
        (vecMul dx s.Jaci j * df j) := fun j => by ring
  simp only [e]
  rw [Finset.sum_add_distrib, ← Finset.mul_sum, ← dot_real (vecMul dx s.Jaci) df, div_mul_cancel₀ _ hne']
  have : mulVec s.Jaci df i = ∑ j, s.Jaci i j * df j := by unfold mulVec; rw [sumFin_real]
  rw [this]; ring

/-! ### C33 -/

/-- **C33.**  `broyden_iterate` reports SUCCESS always, in any arithmetic. -/
theorem C33_always_success {F : Type} [Add F] [Sub F] [Mul F] [Div F] [Neg F] [Scalar F] {m : ℕ}
    (fn : Vec F m → Vec F m) (x : Vec F m) (o : NewtonOpts F) (st0 : NewtonStatus F) :
    ∃ xr st, broydenIterate fn x o st0 = some (.ret (xr, st)) ∧ st.conv = 0 := broyden_returns fn x o st0

/-- **C33, the claim**: SUCCESS only if the residual is below `tol` or the last iteration moved `x` by less than
`dx_delta` in every component. -/
def C33_claim : Prop :=
  ∀ (n : ℕ) (fn : Vec ℝ n → Vec ℝ n) (x xr : Vec ℝ n) (o : NewtonOpts ℝ) (st0 st : NewtonStatus ℝ),
    broydenIterate fn x o st0 = some (.ret (xr, st)) → st.conv = 0 →
    st.res < o.tol ∨ ∃ s s' : BroydenState ℝ n, Reach (broydenBody fn o st0) (broydenInit fn x) s ∧
      broydenBody fn o st0 s = .next s' ∧ s'.x = xr ∧ ∀ i, |s'.x i - s.x i| < o.dxDelta

/-- **C33 is false**: with `F(x) = 1` (no root), started at 0 with one permitted update, SUCCESS is reported with
residual 1 after a step of length `1/√2`. -/
theorem C33_refuted : ¬ C33_claim := by
  intro h
  have h1 : dot (fun _ : Fin 1 => (1 : ℝ)) (fun _ => 1) = 1 := by rw [dot_real]; simp
  have hJ : mulVec (eye 1 : Mat ℝ 1) (fun _ => 1) = fun _ => 1 := by
    rw [mulVec_real]
    have : Matrix.of (eye 1 : Mat ℝ 1) = 1 := by
      ext i j; simp [eye, Matrix.one_apply]
    rw [this, Matrix.one_mulVec]
  obtain ⟨xr, st, hb, hc⟩ := C33_always_success (fun _ => fun _ : Fin 1 => (1 : ℝ)) 0 (nOpts 0 2) nStat
  -- every reachable state has residual 1, and only the initial state makes a step
  have hinv : ∀ s, Reach (broydenBody (fun _ => fun _ : Fin 1 => (1 : ℝ)) (nOpts 0 2) nStat)
      (broydenInit (fun _ => fun _ : Fin 1 => (1 : ℝ)) 0) s →
      s.res2 = 1 ∧ (s.iters = 1 → s = broydenInit (fun _ => fun _ : Fin 1 => (1 : ℝ)) 0) ∧ 1 ≤ s.iters := by
    intro s hr
    refine hr.inv (Inv := fun s => s.res2 = 1 ∧
      (s.iters = 1 → s = broydenInit (fun _ => fun _ : Fin 1 => (1 : ℝ)) 0) ∧ 1 ≤ s.iters)
      ⟨h1, fun _ => rfl, le_rfl⟩ ?_
    rintro a b ⟨ha1, ha2, ha3⟩ hab
    obtain ⟨hn1, hn2, hn3, hn4⟩ := broyden_next hab
    obtain ⟨hi1, -, -⟩ := broydenBody_iters hab
    refine ⟨by rw [hn3, hn2]; exact h1, fun hb => by omega, by omega⟩
  rcases h 1 _ 0 xr (nOpts 0 2) nStat st hb hc with hres | ⟨s, s', hr, hn, -, hi⟩
  · obtain ⟨s, hr, hd⟩ := runLoop_some (show runLoop _ _ _ = some _ from hb)
    have hst : st.res = Real.sqrt s.res2 := by
      unfold broydenBody at hd
      split_ifs at hd
      simp only [LoopStep.done.injEq, Outcome.ret.injEq, Prod.mk.injEq] at hd
      rw [← hd.2]; rfl
    rw [hst, (hinv s hr).1, Real.sqrt_one] at hres
    norm_num [nOpts] at hres
  · obtain ⟨-, hlt, -⟩ := broydenBody_iters hn
    have hi1 : s.iters = 1 := by
      have := (hinv s hr).2.2
      simp only [nOpts] at hlt
      omega
    have hs := (hinv s hr).2.1 hi1
    have hx := (broyden_next hn).1
    have h0 := hi 0
    rw [hx, hs] at h0
    have hd : broydenDir (nOpts 0 2) (broydenInit (fun _ => fun _ : Fin 1 => (1 : ℝ)) 0) =
        fun _ => -(1 / Real.sqrt 2) := by
      unfold broydenDir
      simp only [broydenInit, h1, hJ]
      rw [limitDir_off (by simp [maxStep2, nOpts])]
      funext i
      simp only [broydenLambda, lit_real, ssqrt_real, mul_one]
      norm_num
    rw [hd] at h0
    have h2 : Real.sqrt 2 < 10 := by
      rw [Real.sqrt_lt' (by norm_num)]; norm_num
    have h3 : 0 < Real.sqrt 2 := by positivity
    simp only [add_sub_cancel_left, abs_neg, nOpts] at h0
    rw [abs_of_pos (by positivity), div_lt_div_iff₀ h3 (by norm_num)] at h0
    linarith

/-! ### Examples: the hypotheses are satisfiable -/

/-- `x ↦ 2x - 6` in one dimension -/
def exAffine : NFun ℝ 1 := ⟨fun x i => 2 * x i - 6, fun _ _ _ => 2⟩

example : IsUnit (Matrix.of (fun _ _ => 2 : Mat ℝ 1)).det ∧
    (∀ z, exAffine.fn z = fun i => (Matrix.of (fun _ _ => 2 : Mat ℝ 1)).mulVec z i + (-6)) ∧
    (nOpts 0 3).limitStep = false ∧ (nOpts 0 3).maxStep ≤ 0 ∧ 0 < (nOpts 0 3).dxDelta ∧ 3 ≤ (nOpts 0 3).maxit := by
  refine ⟨by simp, fun z => ?_, rfl, le_rfl, by norm_num [nOpts], by norm_num [nOpts]⟩
  funext i
  have : i = 0 := Subsingleton.elim _ _
  subst this
  simp [exAffine, Matrix.mulVec, dotProduct]
  ring

/-- the root 3 of `2x - 6` is found from 0, so a successful run exists (`C27_success`, `C30_affine`) -/
example : ∃ st, newtonIterate laReal exAffine 0 (nOpts 0 3) nStat true = some (.ret (fun _ => 3, st)) ∧
    st.conv = 0 := by
  obtain ⟨xr, st, h1, h2, -, -, h5⟩ := C30_affine (x := 0) (st0 := nStat) laReal_exact (fn := exAffine)
    (M := fun _ _ => 2) (q := fun _ => -6) (o := nOpts 0 3) (by simp)
    (fun z => by
      funext i
      have : i = 0 := Subsingleton.elim _ _
      subst this
      simp [exAffine, Matrix.mulVec, dotProduct]
      ring) (fun _ => rfl) rfl le_rfl (by norm_num [nOpts]) (by norm_num [nOpts]) true
  have : (fun _ => 3 : Vec ℝ 1) = xr := h5 _ (by funext i; simp [exAffine]; norm_num)
  exact ⟨st, by rw [this]; exact h1, h2⟩

/-- `C29_newton_step_bound`: the step from the initial state, which the limit 1 cuts from 3 -/
example : ∃ s', newtonBody laReal exAffine 0 (nOpts 1 3) ⟨1, false, false, false, true⟩ nStat
    (newtonInit laReal exAffine 0 ⟨1, false, false, false, true⟩) = .next s' ∧ Real.sqrt (∑ i, (s'.xn i - 0) ^ 2) ≤ 1 := by
  suffices h : ∃ s', newtonBody laReal exAffine 0 (nOpts 1 3) ⟨1, false, false, false, true⟩ nStat
      (newtonInit laReal exAffine 0 ⟨1, false, false, false, true⟩) = .next s' by
    obtain ⟨s', hs⟩ := h
    exact ⟨s', hs, C29_newton_step_bound (by norm_num [nOpts]) .refl hs⟩
  unfold newtonBody
  rw [if_pos ⟨rfl, by simp [newtonInit, nOpts]⟩]
  have : newtonDir laReal ⟨1, false, false, false, true⟩ (newtonInit laReal exAffine 0 ⟨1, false, false, false, true⟩)
      ≠ none := by
    unfold newtonDir
    simp only [Bool.false_eq_true, if_false]
    rw [if_pos (by norm_num), laReal_exact.solve _ _ (by simp [newtonInit, exAffine])]
    simp
  cases hd : newtonDir laReal ⟨1, false, false, false, true⟩
    (newtonInit laReal exAffine 0 ⟨1, false, false, false, true⟩) with
  | none => exact absurd hd this
  | some q => exact ⟨_, rfl⟩

/-- `C35_quadratic_exact`: a quadratic component -/
example : ∀ s, (fun x : Vec ℝ 2 => fun _ : Fin 2 => x 0 * x 1 + x 0 ^ 2) (Function.update (fun _ => 3) 0 s) 0 =
    (Polynomial.C 3 * Polynomial.X + Polynomial.X ^ 2 : Polynomial ℝ).eval s := by
  intro s; simp; ring

/-- `C28_evaluations` and `C27_last_iteration`: a run that exhausts an iteration limit of 1 -/
example : ∃ xr st, newtonIterate laReal exAffine 0 (nOpts 0 1) nStat true = some (.ret (xr, st)) ∧ st.funCalls = st.iters + 1 ∧
    st.conv ≠ 0 := by
  obtain ⟨xr, st, h⟩ := C27_returns laReal exAffine 0 (nOpts 0 1) nStat true
  obtain ⟨xs, ds, -, -, h3, h4, h5⟩ := C27_success (by simp) (by norm_num [nOpts]) h
  refine ⟨xr, st, h, (C28_evaluations h).2, ?_⟩
  intro hc
  obtain ⟨g1, g2, -⟩ := h4 hc
  simp only [nOpts] at g2
  omega

/-- `C27_negative_maxit`: with `maxit = -1` the starting point is returned as converged although `2·0 - 6 ≠ 0` -/
example : ∃ st, newtonIterate laReal exAffine 0 (nOpts 0 (-1)) nStat true = some (.ret (0, st)) ∧ st.conv = 0 := by
  obtain ⟨st, h1, h2, -⟩ := C27_negative_maxit (la := laReal) (fn := exAffine) (x := 0) (st0 := nStat) (quiet := true) (o := nOpts 0 (-1))
    (by norm_num [nOpts]) (by simp)
  exact ⟨st, h1, h2⟩

/-- `C31_precondition_irrelevant` on `2x - 6` -/
example : newtonIterate laReal exAffine 0 { nOpts 1 9 with precondition := true } nStat true =
    newtonIterate laReal exAffine 0 { nOpts 1 9 with precondition := false } nStat true :=
  C31_precondition_irrelevant laReal_exact (fun z => by simp [exAffine]) true

/-- `C29_broyden_step_partial`: the first step of Broyden's method for `x - 3` from `0`, where `res2 = 9` -/
example : ∃ s', broydenBody (fun x : Vec ℝ 1 => x - 3) (nOpts 1 9) nStat (broydenInit (fun x => x - 3) 0) = .next s' ∧
    Real.sqrt (∑ i, (s'.x i - 0) ^ 2) ≤ 1 * Real.sqrt (1 + 9) := by
  refine ⟨_, if_pos ⟨rfl, by norm_num [broydenInit, nOpts]⟩, ?_⟩
  refine (C29_broyden_step_partial (o := nOpts 1 9) (st0 := nStat) (by norm_num [nOpts]) .refl
    (if_pos ⟨rfl, by norm_num [broydenInit, nOpts]⟩)).trans (le_of_eq ?_)
  norm_num [nOpts, broydenInit, dot, sumFin_real]

/-- `C32_secant` for the same step without a step limit -/
example : ∃ s', broydenBody (fun x : Vec ℝ 1 => x - 3) (nOpts 0 9) nStat (broydenInit (fun x => x - 3) 0) = .next s' ∧
    (Matrix.of s'.Jaci).mulVec (s'.f0 - (0 - 3)) = s'.x - 0 := by
  refine ⟨_, if_pos ⟨rfl, by norm_num [broydenInit, nOpts]⟩, ?_⟩
  have h := C32_secant (o := nOpts 0 9) (st0 := nStat) (fn := fun x : Vec ℝ 1 => x - 3) (s := broydenInit (fun x => x - 3) 0)
    (if_pos ⟨rfl, by norm_num [broydenInit, nOpts]⟩) ?_
  · exact h
  · simp [broydenInit, broydenDir, limitDir, maxStep2, nOpts, eye, mulVec, dot, broydenLambda, sumFin_real]
    rw [if_neg (by norm_num)]
    have : (0 : ℝ) < √(1 + 3 * 3) := by positivity
    simp [this.ne']

/-- `C35_quadratic_map`: the derivative of `x₀x₁ + x₀²` with respect to `x₀`, exact with any step -/
example : approxJacobi (fun x : Vec ℝ 2 => fun _ : Fin 2 => 0 + ∑ j, (0 : ℝ) * x j +
    ∑ j, ∑ k, (if j = 0 then 1 else 0) * x j * x k) (fun _ => 3) (1 / 2) 0 0 = 9 := by
  refine (C35_quadratic_map (fun _ => 0) (fun _ _ => 0) (fun _ j _ => if j = 0 then 1 else 0) (fun _ => 3) (by norm_num) 0 0).trans ?_
  norm_num [Fin.sum_univ_two]

end real
end Verif
