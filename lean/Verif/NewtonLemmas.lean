import Verif.Newton

/-!
# Helper lemmas about the model of newton.hpp
-/

set_option linter.unusedSectionVars false

namespace Verif
section generic
variable {F : Type} [Add F] [Sub F] [Mul F] [Div F] [Neg F] [Scalar F] {n : ℕ}

theorem newtonBody_iters {la : LinAlg F} {fn : NFun F n} {x : Vec F n} {o : NewtonOpts F} {fl : NewtonFlags}
    {st0 : NewtonStatus F} {s s' : NewtonState F n} (h : newtonBody la fn x o fl st0 s = .next s') :
    s'.iters = s.iters + 1 ∧ (s.iters : ℤ) < o.maxit ∧ s.term = false := by
  unfold newtonBody at h
  by_cases hc : s.term = false ∧ (s.iters : ℤ) < o.maxit
  · rw [if_pos hc] at h
    simp only at h
    split at h
    · cases h
    · simp only [LoopStep.next.injEq] at h
      rw [← h]
      exact ⟨rfl, hc.2, hc.1⟩
  · rw [if_neg hc] at h; cases h

/-- what a pass that goes on computed, with any flags -/
theorem newtonBody_next_eq {la : LinAlg F} {fn : NFun F n} {x : Vec F n} {o : NewtonOpts F} {fl : NewtonFlags}
    {st0 : NewtonStatus F} {s s' : NewtonState F n} (h : newtonBody la fn x o fl st0 s = .next s') :
    ∃ lup d, newtonDir la fl s = some (lup, d) ∧
      (s'.xn = fun i => s.xn i + newtonLambda fl s.res2 * limitDir (maxStep2 o) (newtonLambda fl s.res2) d i) ∧
      s'.r = fn.fn s'.xn ∧ s'.res2 = dot s'.r s'.r := by
  obtain ⟨-, h2, h3⟩ := newtonBody_iters h
  unfold newtonBody at h
  rw [if_pos ⟨h3, h2⟩] at h
  simp only at h
  split at h
  · cases h
  · rename_i lup d hd
    simp only [LoopStep.next.injEq] at h
    rw [← h]
    exact ⟨lup, d, hd, rfl, rfl, rfl⟩

/-- the fuel given to the loop is enough, and nothing but a normal return is possible -/
theorem newtonImpl_returns (la : LinAlg F) (fl : NewtonFlags) (fn : NFun F n) (x : Vec F n) (o : NewtonOpts F)
    (st0 : NewtonStatus F) : ∃ xr st, newtonImpl la fl fn x o st0 = some (.ret (xr, st)) := by
  have hterm : ∃ r, newtonImpl la fl fn x o st0 = some r := by
    unfold newtonImpl
    refine runLoop_terminates_bound (Inv := fun _ => True) (fun s => o.maxit.toNat - s.iters) ?_ trivial ?_
    · intro a b _ hb
      obtain ⟨h1, h2, -⟩ := newtonBody_iters hb
      exact ⟨trivial, by omega⟩
    · simp [newtonInit]
  obtain ⟨r, hr⟩ := hterm
  obtain ⟨s, -, hd⟩ := runLoop_some (show runLoop _ _ _ = some r from hr)
  unfold newtonBody at hd
  by_cases hc : s.term = false ∧ (s.iters : ℤ) < o.maxit
  · rw [if_pos hc] at hd
    simp only at hd
    split at hd
    · simp only [LoopStep.done.injEq] at hd
      exact ⟨_, _, by rw [hr, ← hd]⟩
    · cases hd
  · rw [if_neg hc] at hd
    simp only [LoopStep.done.injEq] at hd
    exact ⟨_, _, by rw [hr, ← hd]⟩

/-- the matrix in use -/
def curJac (fl : NewtonFlags) (fn : NFun F n) (x0 x : Vec F n) : Mat F n :=
  if fl.refresh ≠ 0 then fn.jac x else fn.jac x0

/-- the diagonal scaling -/
def scaleMat (J : Mat F n) : Mat F n := precondDiag J (zeroMat n)

/-- one update of `newton_iterate_impl` without stored LU: the solver's answer `z`, the direction, the new point -/
def NewtonUpd (la : LinAlg F) (fl : NewtonFlags) (fn : NFun F n) (o : NewtonOpts F) (x0 x d x' : Vec F n) : Prop :=
  ∃ z, (if fl.precondition then la.solve (matMul (scaleMat (curJac fl fn x0 x)) (curJac fl fn x0 x))
          (mulVec (scaleMat (curJac fl fn x0 x)) (fn.fn x))
        else la.solve (curJac fl fn x0 x) (fn.fn x)) = some z ∧
    d = limitDir (maxStep2 o) (newtonLambda fl (dot (fn.fn x) (fn.fn x))) (fun i => - z i) ∧
    x' = fun i => x i + newtonLambda fl (dot (fn.fn x) (fn.fn x)) * d i

/-- loop invariant of `newton_iterate_impl` -/
structure NewtonInv (la : LinAlg F) (fl : NewtonFlags) (fn : NFun F n) (o : NewtonOpts F) (x0 : Vec F n)
    (s : NewtonState F n) (xs ds : ℕ → Vec F n) : Prop where
  start : xs 0 = x0
  cur : xs s.iters = s.xn
  upd : ∀ k < s.iters, NewtonUpd la fl fn o x0 (xs k) (ds k) (xs (k + 1))
  r : s.r = fn.fn s.xn
  res : s.res2 = dot (fn.fn s.xn) (fn.fn s.xn)
  J : s.J = curJac fl fn x0 s.xn
  lup : ∃ L U P, s.lup = some (L, U, P) ∧ ∀ i j, i ≠ j → P i j = lit 0
  le : (s.iters : ℤ) ≤ o.maxit ∨ s.iters = 0
  last : s.term = true → 0 < s.iters ∧ ltb (normInf (ds (s.iters - 1))) o.dxDelta = true
  before : ∀ k < s.iters, (s.term = true → k + 1 < s.iters) → ltb (normInf (ds k)) o.dxDelta = false
  jacs : s.jacCalls = if fl.refresh ≠ 0 then s.iters + 1 else 1
  funs : s.funCalls = s.iters + 1

theorem newtonInv_init (la : LinAlg F) {fl : NewtonFlags} (hfl : fl.refresh ≤ 3) (fn : NFun F n)
    (o : NewtonOpts F) (x0 : Vec F n) :
    NewtonInv la fl fn o x0 (newtonInit la fn x0 fl) (fun _ => x0) (fun _ => x0) where
  start := rfl
  cur := rfl
  upd := by intro k hk; simp [newtonInit] at hk
  r := rfl
  res := rfl
  J := by unfold newtonInit curJac; simp
  lup := ⟨zeroMat n, zeroMat n, zeroMat n, by simp [newtonInit, not_lt.mpr hfl], fun _ _ _ => rfl⟩
  le := Or.inr rfl
  last := by intro h; simp [newtonInit] at h
  before := by intro k hk; simp [newtonInit] at hk
  jacs := by simp [newtonInit]
  funs := rfl

theorem precondDiag_eq {J P : Mat F n} (hP : ∀ i j, i ≠ j → P i j = lit 0) :
    precondDiag J P = scaleMat J := by
  funext i j
  unfold precondDiag scaleMat precondDiag zeroMat
  by_cases h : i = j
  · simp [h]
  · simp [h, hP i j h]

/-- what a pass of the loop that goes on has done (no stored LU) -/
theorem newtonBody_next {la : LinAlg F} {fl : NewtonFlags} (hfl : fl.refresh ≤ 3) {fn : NFun F n}
    {o : NewtonOpts F} {x0 : Vec F n} {st0 : NewtonStatus F} {s s' : NewtonState F n} {xs ds : ℕ → Vec F n}
    (hI : NewtonInv la fl fn o x0 s xs ds) (h : newtonBody la fn x0 o fl st0 s = .next s') :
    ∃ d, NewtonInv la fl fn o x0 s' (Function.update xs (s.iters + 1) s'.xn)
      (Function.update ds s.iters d) := by
  obtain ⟨hit, hlt, hterm⟩ := newtonBody_iters h
  unfold newtonBody at h
  rw [if_pos ⟨hterm, hlt⟩] at h
  simp only at h
  obtain ⟨L, U, P, hlup, hP⟩ := hI.lup
  -- the direction
  have hdir : ∀ q, newtonDir la fl s = some q → ∃ z, (if fl.precondition then
        la.solve (matMul (scaleMat s.J) s.J) (mulVec (scaleMat s.J) s.r) else la.solve s.J s.r) = some z ∧
        q.2 = (fun i => - z i) ∧ ∃ L U P, q.1 = some (L, U, P) ∧ ∀ i j, i ≠ j → P i j = lit 0 := by
    intro q hq
    unfold newtonDir at hq
    cases hp : fl.precondition with
    | true =>
      rw [hp] at hq
      simp only [if_true, hlup] at hq
      rw [precondDiag_eq hP] at hq
      split at hq
      · cases hq
      · rename_i z hz
        simp only [Option.some.injEq] at hq
        subst hq
        exact ⟨z, by simpa using hz, rfl, L, U, scaleMat s.J, rfl, fun i j hij => by
          simp [scaleMat, precondDiag, hij, zeroMat]⟩
    | false =>
      rw [hp] at hq
      simp only [Bool.false_eq_true, if_false, if_pos hfl] at hq
      split at hq
      · cases hq
      · rename_i z hz
        simp only [Option.some.injEq] at hq
        subst hq
        exact ⟨z, by simpa using hz, rfl, L, U, P, hlup, hP⟩
  split at h
  · cases h
  · rename_i lup d hd
    obtain ⟨z, hz, hz2, L', U', P', hl, hP'⟩ := hdir _ hd
    simp only at hz2 hl
    subst hz2
    simp only [LoopStep.next.injEq] at h
    refine ⟨limitDir (maxStep2 o) (newtonLambda fl s.res2) (fun i => - z i), ?_⟩
    set dd := limitDir (maxStep2 o) (newtonLambda fl s.res2) (fun i => - z i) with hdd
    subst h
    have hx0 : ∀ k, k ≤ s.iters → ∀ v, Function.update xs (s.iters + 1) v k = xs k := fun k hk v =>
      Function.update_of_ne (by omega) _ _
    constructor
    · rw [hx0 0 (by omega)]; exact hI.start
    · exact Function.update_self ..
    · intro k hk
      simp only at hk
      by_cases hks : k = s.iters
      · subst hks
        rw [hx0 _ le_rfl, Function.update_self, Function.update_self, hI.cur]
        refine ⟨z, ?_, ?_, ?_⟩
        · rw [← hI.J, ← hI.r]; exact hz
        · rw [← hI.res, hdd]
        · rw [← hI.res]
      · have hk' : k < s.iters := by omega
        rw [hx0 k hk'.le, hx0 (k + 1) hk', Function.update_of_ne (by omega)]
        exact hI.upd k hk'
    · rfl
    · rfl
    · unfold curJac
      by_cases hr : fl.refresh ≠ 0
      · simp [hr]
      · have := hI.J
        unfold curJac at this
        rw [if_neg hr] at this
        simp only [if_neg hr]
        exact this
    · exact ⟨L', U', P', by simp [not_lt.mpr hfl, hl], hP'⟩
    · left; simp only; push_cast; omega
    · intro hT
      simp only at hT ⊢
      exact ⟨by omega, by rw [Nat.add_sub_cancel, Function.update_self]; exact hT⟩
    · intro k hk hT
      simp only at hk hT
      by_cases hks : k = s.iters
      · subst hks
        rw [Function.update_self]
        cases hc : ltb (normInf dd) o.dxDelta with
        | false => rfl
        | true => have := hT hc; omega
      · rw [Function.update_of_ne (by omega)]
        exact hI.before k (by omega) (fun ht => by rw [hterm] at ht; cases ht)
    · simp only [hI.jacs]
      by_cases hr : fl.refresh ≠ 0
      · simp only [if_pos hr]
      · simp only [if_neg hr]
    · simp only [hI.funs]

/-- **Trace of a Newton run** (no stored LU). -/
theorem newtonImpl_trace {la : LinAlg F} {fl : NewtonFlags} (hfl : fl.refresh ≤ 3) {fn : NFun F n}
    {x : Vec F n} {o : NewtonOpts F} {st0 : NewtonStatus F} {xr : Vec F n} {st : NewtonStatus F}
    (h : newtonImpl la fl fn x o st0 = some (.ret (xr, st))) :
    ∃ (s : NewtonState F n) (xs ds : ℕ → Vec F n), NewtonInv la fl fn o x s xs ds ∧
      ((¬ (s.term = false ∧ (s.iters : ℤ) < o.maxit) ∧ (xr, st) = newtonFinish x o s) ∨
       (newtonDir la fl s = none ∧ xr = x ∧ st.conv = 4 ∧ st.iters = s.iters ∧
        st.jacCalls = s.jacCalls ∧ st.funCalls = s.funCalls)) := by
  obtain ⟨s, hr, hd⟩ := runLoop_some (show runLoop _ _ _ = some _ from h)
  have hinv : ∃ xs ds, NewtonInv la fl fn o x s xs ds := by
    refine hr.inv (Inv := fun s => ∃ xs ds, NewtonInv la fl fn o x s xs ds)
      ⟨_, _, newtonInv_init la hfl fn o x⟩ ?_
    rintro a b ⟨xs, ds, hI⟩ hb
    obtain ⟨d, hd⟩ := newtonBody_next hfl hI hb
    exact ⟨_, _, hd⟩
  obtain ⟨xs, ds, hI⟩ := hinv
  refine ⟨s, xs, ds, hI, ?_⟩
  unfold newtonBody at hd
  by_cases hc : s.term = false ∧ (s.iters : ℤ) < o.maxit
  · rw [if_pos hc] at hd
    simp only at hd
    split at hd
    · rename_i hn
      simp only [LoopStep.done.injEq, Outcome.ret.injEq, Prod.mk.injEq] at hd
      obtain ⟨h1, h2⟩ := hd
      exact Or.inr ⟨hn, h1.symm, by rw [← h2], by rw [← h2], by rw [← h2], by rw [← h2]⟩
    · cases hd
  · rw [if_neg hc] at hd
    simp only [LoopStep.done.injEq, Outcome.ret.injEq] at hd
    exact Or.inl ⟨hc, hd.symm⟩

theorem broydenBody_iters {fn : Vec F n → Vec F n} {o : NewtonOpts F}
    {st0 : NewtonStatus F} {s s' : BroydenState F n} (h : broydenBody fn o st0 s = .next s') :
    s'.iters = s.iters + 1 ∧ (s.iters : ℤ) < o.maxit ∧ s.term = false := by
  unfold broydenBody at h
  by_cases hc : s.term = false ∧ (s.iters : ℤ) < o.maxit
  · rw [if_pos hc] at h
    simp only [LoopStep.next.injEq] at h
    rw [← h]
    exact ⟨rfl, hc.2, hc.1⟩
  · rw [if_neg hc] at h; cases h

/-- `broyden_iterate` always returns, with status SUCCESS -/
theorem broyden_returns (fn : Vec F n → Vec F n) (x : Vec F n) (o : NewtonOpts F)
    (st0 : NewtonStatus F) : ∃ xr st, broydenIterate fn x o st0 = some (.ret (xr, st)) ∧ st.conv = 0 := by
  have hterm : ∃ r, broydenIterate fn x o st0 = some r := by
    unfold broydenIterate
    refine runLoop_terminates_bound (Inv := fun _ => True) (fun s => o.maxit.toNat - s.iters) ?_ trivial ?_
    · intro a b _ hb
      obtain ⟨h1, h2, -⟩ := broydenBody_iters hb
      exact ⟨trivial, by omega⟩
    · show o.maxit.toNat - 1 < _
      omega
  obtain ⟨r, hr⟩ := hterm
  obtain ⟨s, -, hd⟩ := runLoop_some (show runLoop _ _ _ = some r from hr)
  unfold broydenBody at hd
  by_cases hc : s.term = false ∧ (s.iters : ℤ) < o.maxit
  · rw [if_pos hc] at hd; cases hd
  · rw [if_neg hc] at hd
    simp only [LoopStep.done.injEq] at hd
    exact ⟨_, _, by rw [hr, ← hd], rfl⟩

end generic
end Verif
