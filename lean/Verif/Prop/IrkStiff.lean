import Mathlib.LinearAlgebra.Eigenspace.Triangularizable
import Mathlib.Analysis.Complex.Polynomial.Basic
import Verif.Prop.Stability
import Verif.Prop.IrkTerminates

/-!
# Property C67 for stiff linear systems: complete runs

For `y' = J y + g(t)` with the spectrum of `J` in the closed left half plane the recommended stiff methods never meet a
singular matrix.  With termination (`C67_affine`) this gives complete runs: `irk::odeint` returns SUCCESS at `t1`.
-/

set_option linter.unusedSectionVars false

namespace Verif
open Spec TestEq

variable {n : ℕ}

/-- every complex eigenvalue has a non-positive real part -/
def Dissipative (J : Matrix (Fin n) (Fin n) ℝ) : Prop :=
  ∀ (l : ℂ) (v : Fin n → ℂ), v ≠ 0 → (∀ k, ∑ i, (J k i : ℂ) * v i = l * v k) → l.re ≤ 0

/-- `(I - h A⊗J) Y = 0` has only the zero solution if `I - h λ A` is invertible for every eigenvalue `λ` of `J` -/
theorem kron_kernel {N : ℕ} (A : Fin N → Fin N → ℂ) (J : Fin n → Fin n → ℂ) (h : ℂ)
    (hreg : ∀ (l : ℂ) (v : Fin n → ℂ), v ≠ 0 → (∀ k, ∑ i, J k i * v i = l * v k) →
      ∀ u : Fin N → ℂ, (∀ i, u i = h * l * ∑ j, A i j * u j) → u = 0)
    (Y : Fin N → Fin n → ℂ) (hY : ∀ p q, Y p q = h * ∑ u, A p u * ∑ l, J q l * Y u l) : Y = 0 := by
  -- the operators
  let T : Module.End ℂ (Fin N → Fin n → ℂ) :=
    { toFun := fun Y p q => ∑ l, J q l * Y p l
      map_add' := fun a b => by funext p q; simp [mul_add, Finset.sum_add_distrib]
      map_smul' := fun c a => by funext p q; simp [Finset.mul_sum, mul_left_comm] }
  let S : Module.End ℂ (Fin N → Fin n → ℂ) :=
    { toFun := fun Y p q => Y p q - h * ∑ u, A p u * ∑ l, J q l * Y u l
      map_add' := fun a b => by
        funext p q
        simp only [Pi.add_apply, mul_add, Finset.sum_add_distrib]
        ring
      map_smul' := fun c a => by
        funext p q
        simp only [Pi.smul_apply, smul_eq_mul, RingHom.id_apply]
        rw [mul_sub]
        congr 1
        have : ∀ u, A p u * ∑ l, J q l * (c * a u l) = c * (A p u * ∑ l, J q l * a u l) := fun u => by
          rw [mul_left_comm c, Finset.mul_sum (a := c)]
          congr 1
          exact Finset.sum_congr rfl fun l _ => by ring
        simp only [this, ← Finset.mul_sum]
        ring }
  have hST : ∀ Z, S (T Z) = T (S Z) := by
    intro Z
    funext p q
    change ∑ l, J q l * Z p l - h * ∑ u, A p u * ∑ l, J q l * ∑ m, J l m * Z u m =
      ∑ l, J q l * (Z p l - h * ∑ u, A p u * ∑ m, J l m * Z u m)
    simp only [mul_sub, Finset.sum_sub_distrib]
    congr 1
    simp only [Finset.mul_sum]
    rw [Finset.sum_comm]
    refine Finset.sum_congr rfl fun l _ => Finset.sum_congr rfl fun u _ => Finset.sum_congr rfl fun m _ => by ring
  by_contra hne
  let W : Submodule ℂ (Fin N → Fin n → ℂ) := LinearMap.ker S
  have hYW : Y ∈ W := by
    rw [LinearMap.mem_ker]
    funext p q
    change Y p q - h * ∑ u, A p u * ∑ l, J q l * Y u l = 0
    rw [← hY p q, sub_self]
  have hTW : ∀ x ∈ W, T x ∈ W := by
    intro x hx
    rw [LinearMap.mem_ker] at hx ⊢
    rw [hST, hx, map_zero]
  have : Nontrivial W := ⟨⟨⟨Y, hYW⟩, 0, fun hc => hne (congrArg Subtype.val hc)⟩⟩
  obtain ⟨l, hl⟩ := Module.End.exists_eigenvalue (T.restrict hTW)
  obtain ⟨⟨Z, hZW⟩, hZ⟩ := hl.exists_hasEigenvector
  have hTZ : T Z = l • Z := congrArg Subtype.val hZ.apply_eq_smul
  have hZ0 : Z ≠ 0 := fun hc => hZ.2 (Subtype.ext hc)
  have hT : ∀ p q, ∑ m, J q m * Z p m = l * Z p q := fun p q => congrFun (congrFun hTZ p) q
  rw [LinearMap.mem_ker] at hZW
  have hS : ∀ p q, Z p q = h * ∑ u, A p u * ∑ m, J q m * Z u m := fun p q =>
    sub_eq_zero.mp (congrFun (congrFun hZW p) q)
  obtain ⟨p, hp⟩ : ∃ p, Z p ≠ 0 := by
    by_contra hc
    push Not at hc
    exact hZ0 (funext hc)
  obtain ⟨q, hq⟩ : ∃ q, Z p q ≠ 0 := by
    by_contra hc
    push Not at hc
    exact hp (funext hc)
  have hu := hreg l (Z p) hp (hT p) (fun i => Z i q) (fun i => by
    conv_lhs => rw [hS i q]
    simp only [hT]
    rw [mul_assoc, Finset.mul_sum (a := l)]
    congr 1
    exact Finset.sum_congr rfl fun u _ => by ring)
  exact hq (congrFun hu p)

/-- methods of C60 that also pass through `irk_guts` -/
def stiffUsable : List ℤ := [210, 211, 230, 231, 232]

theorem gamma_nonneg {m : ℤ} (hm : m ∈ stiffUsable) : 0 ≤ (irkCoeffs m : SolverCoeffs ℝ).gamma := by
  simp only [stiffUsable, List.mem_cons, List.not_mem_nil, or_false] at hm
  rcases hm with rfl | rfl | rfl | rfl | rfl
  · change (0 : ℝ) ≤ q 1 3
    simp only [q, lit_real]; norm_num
  · change (0 : ℝ) ≤ lit (274888829595677 / 10 ^ 15)
    simp only [lit_real]; norm_num
  · change (0 : ℝ) ≤ lit 0
    simp
  · change (0 : ℝ) ≤ lit 0
    simp
  · change (0 : ℝ) ≤ lit (1894964436645163 / 10 ^ 16)
    simp only [lit_real]; norm_num

/-- with a dissipative matrix the stiff methods only meet regular matrices -/
theorem regular_dissipative {m : ℤ} (hm : m ∈ stiffUsable) {fn : OdeFun ℝ n} {J : Matrix (Fin n) (Fin n) ℝ}
    (hJ : ∀ t y i j, fn.jac t y i j = J i j) (hD : Dissipative J) (t : ℝ) (y : Vec ℝ n) {h : ℝ} (hh : 0 < h) :
    RegularAt fn (irkCoeffs m : SolverCoeffs ℝ) t y h := by
  have hm' : m ∈ ([200, 210, 211, 230, 231, 232] : List ℤ) := by
    have : ∀ m ∈ stiffUsable, m ∈ ([200, 210, 211, 230, 231, 232] : List ℤ) := by decide
    exact this m hm
  have hg := gamma_nonneg hm
  have key : ∀ (sc : SolverCoeffs ℝ), 0 ≤ sc.gamma →
      (∀ z : ℂ, z.re ≤ 0 → ∃ R, stabilityFunction z sc.A sc.b = .ret R) → RegularAt fn sc t y h := by
    intro sc hg hst
    constructor
    · rw [← Matrix.isUnit_iff_isUnit_det, ← Matrix.mulVec_injective_iff_isUnit]
      intro x x' hx
      have hx0 : (Matrix.of (stageJac sc h (fn.jac t y))).mulVec (x - x') = 0 := by
        rw [Matrix.mulVec_sub]; exact sub_eq_zero.mpr hx
      have hM : Matrix.of (stageJac sc h (fn.jac t y)) = 1 - Matrix.of (fun p q => h * kron sc.mat (fn.jac t y) p q) := by
        ext a b
        simp [stageJac, eye_real]
      rw [hM, Matrix.sub_mulVec, Matrix.one_mulVec, ← mulVec_real] at hx0
      have hY : ∀ (p : Fin sc.ns) (q : Fin n), (x - x') (finProdFinEquiv (p, q)) =
          h * ∑ u : Fin sc.ns, sc.a p u * ∑ l, J q l * (x - x') (finProdFinEquiv (u, l)) := by
        intro p q
        have := congrFun hx0 (finProdFinEquiv (p, q))
        rw [Pi.sub_apply, kron_mulVec] at this
        simp only [hJ] at this
        exact sub_eq_zero.mp this
      have hz := kron_kernel (fun i j : Fin sc.ns => (sc.a i j : ℂ)) (fun i j => (J i j : ℂ)) (h : ℂ)
        (fun l v hv hl u hu => ?_) (fun p q => (((x - x') (finProdFinEquiv (p, q)) : ℝ) : ℂ)) (fun p q => ?_)
      · funext P
        obtain ⟨⟨p, q⟩, rfl⟩ := finProdFinEquiv.surjective P
        have := congrFun (congrFun hz p) q
        simp only [Pi.zero_apply, Complex.ofReal_eq_zero] at this
        exact sub_eq_zero.mp this
      · have hre := hD l v hv hl
        obtain ⟨R, hR⟩ := hst (h * l) (by rw [Complex.re_ofReal_mul]; exact mul_nonpos_of_nonneg_of_nonpos hh.le hre)
        have hU := ((C59_returns _ _ _).1 ⟨R, hR⟩).2.2
        change IsUnit (stabMat sc.ns (h * l) sc.A) at hU
        have ha : ∀ i j : Fin sc.ns, cxEntry sc.A i j = (sc.a i j : ℂ) := fun i j => by
          simp [cxEntry, SolverCoeffs.a]
        have e2 : (stabMat sc.ns (h * l) sc.A).mulVec u = 0 := by
          funext i
          have : (stabMat sc.ns (h * l) sc.A).mulVec u i = u i - h * l * ∑ j : Fin sc.ns, (sc.a i j : ℂ) * u j := by
            simp only [Matrix.mulVec, dotProduct, stabMat, sub_mul, Finset.sum_sub_distrib, ite_mul, one_mul, zero_mul,
              Finset.sum_ite_eq, Finset.mem_univ, if_true, ha, Finset.mul_sum, mul_assoc]
          rw [this, ← hu i, sub_self]; rfl
        exact Matrix.mulVec_injective_iff_isUnit.mpr hU (by rw [e2, Matrix.mulVec_zero])
      · have := congrArg (fun r : ℝ => (r : ℂ)) (hY p q)
        simpa using this
    · rw [← Matrix.isUnit_iff_isUnit_det, ← Matrix.mulVec_injective_iff_isUnit]
      intro x x' hx
      have hx0 : (Matrix.of fun i j => eye n i j - sc.gamma * h * fn.jac t y i j).mulVec (x - x') = 0 := by
        rw [Matrix.mulVec_sub]; exact sub_eq_zero.mpr hx
      have hM : (Matrix.of fun i j => eye n i j - sc.gamma * h * fn.jac t y i j) = 1 - (sc.gamma * h) • J := by
        ext a b
        simp [eye_real, hJ]
      rw [hM, Matrix.sub_mulVec, Matrix.one_mulVec, Matrix.smul_mulVec] at hx0
      have hv : ∀ k, (x - x') k = sc.gamma * h * ∑ l, J k l * (x - x') l := fun k => by
        have := congrFun hx0 k
        exact sub_eq_zero.mp this
      by_contra hne
      have hne' : (fun k => (((x - x') k : ℝ) : ℂ)) ≠ 0 := fun hc => hne (by
        funext k
        have := congrFun hc k
        simp only [Pi.zero_apply, Complex.ofReal_eq_zero] at this
        exact sub_eq_zero.mp this)
      rcases eq_or_lt_of_le hg with h0 | h0
      · refine hne (funext fun k => ?_)
        have := hv k
        rw [← h0, zero_mul, zero_mul] at this
        exact sub_eq_zero.mp this
      · have hgh : 0 < sc.gamma * h := by positivity
        have hre := hD ((1 / (sc.gamma * h) : ℝ) : ℂ) _ hne' (fun k => by
          have e : ∑ l, J k l * (x - x') l = 1 / (sc.gamma * h) * (x - x') k := by
            conv_rhs => rw [hv k]
            field_simp
          have := congrArg (fun r : ℝ => (r : ℂ)) e
          simpa using this)
        rw [Complex.ofReal_re] at hre
        have : 0 < 1 / (sc.gamma * h) := by positivity
        linarith
  exact key _ hg fun z hz => by
    obtain ⟨R, hR, -⟩ := C60_A_stable hm' hz
    exact ⟨R, hR⟩

theorem minOrder_stiff {m : ℤ} (hm : m ∈ stiffUsable) {mo : ℕ} (h : minOrder (irkCoeffs m : SolverCoeffs ℝ) = some mo) :
    (machinePrecision : ℝ) < (9 / 10) ^ (1 + mo) := by
  have hp : (machinePrecision : ℝ) = 1 / 10 ^ 17 := by simp [machinePrecision]
  have hb : mo ≤ 5 := by
    simp only [stiffUsable, List.mem_cons, List.not_mem_nil, or_false] at hm
    rcases hm with rfl | rfl | rfl | rfl | rfl <;>
      · have h' := h.symm
        simp [irkCoeffs, minOrder, radauIIA32, radauIIA53, lobattoIIIC43, lobattoIIIC64, lobattoIIIC85] at h'
        omega
  rw [hp]
  have : ((9 / 10 : ℝ)) ^ (1 + 5) ≤ (9 / 10) ^ (1 + mo) := pow_le_pow_of_le_one (by norm_num) (by norm_num) (by omega)
  norm_num at this ⊢
  linarith

/-- without a step limit an adaptive run that returns reports SUCCESS -/
theorem adaptive_status {F : Type} [Add F] [Sub F] [Mul F] [Div F] [Neg F] [Scalar F] {nd : Bool} {la : LinAlg F}
    {fn : OdeFun F n} {t0 t1 : F} {y0 : Vec F n} {o : IrkOpts F} {dt : F} {sc : SolverCoeffs F} {oo : OutOpts} {fuel : ℕ}
    {out : IrkOutput F (sc.ns * n) n} (had : o.adaptive = true) (hms : o.maxSteps < 0)
    (h : irkGuts nd la fn t0 t1 y0 o dt sc oo fuel = some (.ret out)) : out.status = 0 := by
  obtain ⟨no, mo, Ai, s, h1, h2, h3, h4, h5, h6, h7⟩ := irkGuts_ret h
  have h0 : s.sol.status = 0 := by
    refine h6.inv (Inv := fun s => s.sol.status = 0) rfl ?_
    intro a b ha hb
    have hc := bodyCaseI nd la fn t1 o no oo sc mo (dWeights Ai fun i => sc.bw i) (dWeights Ai fun i => sc.bw2 i) a
    rw [hb] at hc
    cases hc with
    | newton _ _ _ _ _ h => exact ha
    | rejected _ _ _ _ _ h _ _ _ _ => exact ha
    | accepted _ _ _ _ _ h b _ _ _ _ _ =>
      by_cases e1 : (a.step + 1) % oo.interval.toNat = 0 <;> cases e2 : oo.storeInVectors <;>
        cases e3 : oo.writeToFile <;> simp [acceptI, e1, e2, e3, IrkOutput.bump, ha]
  have hc := bodyCaseI nd la fn t1 o no oo sc mo (dWeights Ai fun i => sc.bw i) (dWeights Ai fun i => sc.bw2 i) s
  rw [h7] at hc
  cases hc with
  | finished hf => exact h0
  | limit hl hm => omega
  | general hl hm r hr hs had' => rw [had] at had'; cases had'
  | stop r hr => exact absurd rfl (hr out)

section runs
variable {fn : OdeFun ℝ n} {t0 t1 : ℝ} {y0 : Vec ℝ n} {o : IrkOpts ℝ} {no : NewtonOpts ℝ} {dt : ℝ} {oo : OutOpts}

/-- **C67 (stiff linear systems, complete runs).**  RADAU_IIA_32, RADAU_IIA_53, LOBATTO_IIIC_43, LOBATTO_IIIC_64 and
LOBATTO_IIIC_85 on `y' = J y + g(t)`, the eigenvalues of `J` in the closed left half plane and `g` bounded on bounded
time intervals: with valid options and no step limit `irk::odeint` returns, with status SUCCESS, whatever the interval,
the initial value and the initial step; with every step stored the last recorded time is `t1`. -/
theorem C67_stiff_success {m : ℤ} (hm : m ∈ ([210, 211, 230, 231, 232] : List ℤ))
    {J : Matrix (Fin n) (Fin n) ℝ} {g : ℝ → Vec ℝ n} (hf : ∀ t y, fn.fn t y = J.mulVec y + g t)
    (hJ : ∀ t y i j, fn.jac t y i j = J i j) (hg : TimeBounded g) (hD : Dissipative J) (hn : 0 < n)
    (ht : t0 < t1) (hdt : 0 < dt) (had : o.adaptive = true) (hms : o.maxSteps < 0)
    (hno : o.newtonOpts = some no) (hmax : 2 ≤ no.maxit) (htol : no.tol ≠ 0) (hr : no.refreshJac ≠ 0)
    (hat : 0 < o.absTol) (hrt : 0 ≤ o.relTol) (hi : oo.interval.toNat ≠ 0)
    (hw : oo.writeToFile = true → oo.streamSet = true) :
    ∃ fuel out, irkOdeint false laReal fn t0 t1 y0 o oo m dt fuel = some (.ret out) ∧ out.status = 0 ∧
      out.tVals.head? = some t0 ∧ out.yVals.head? = some y0 ∧
      (oo.storeInVectors = true → oo.interval.toNat = 1 → out.tVals.getLast? = some t1) := by
  have hU : m ∈ ([210, 211, 212, 213, 230, 231, 232] : List ℤ) := by
    have : ∀ m ∈ ([210, 211, 230, 231, 232] : List ℤ), m ∈ ([210, 211, 212, 213, 230, 231, 232] : List ℤ) := by decide
    exact this m hm
  obtain ⟨fuel, r, h⟩ := C67_affine (nd := false) (la := laReal) (fn := fn) (t0 := t0) (t1 := t1) (y0 := y0) (dt := dt)
    (o := o) (oo := oo) (sc := irkCoeffs m) laReal_exact laReal_sound (Or.inl rfl) hno hmax htol hat hrt
    (fun mo h => minOrder_stiff hm h) hf hJ hg
  have hv : irkVerify (irkCoeffs m : SolverCoeffs ℝ) = true :=
    (C08_irk m).mpr (by
      have : ∀ m ∈ ([210, 211, 212, 213, 230, 231, 232] : List ℤ),
        m ∈ ([200, 210, 211, 212, 213, 220, 222, 230, 231, 232, 240, 243] : List ℤ) := by decide
      exact this m hU)
  have hb : 0 < (irkCoeffs m : SolverCoeffs ℝ).b2.length := by
    have hI : m ∈ irkImplemented := by
      have : ∀ m ∈ irkUsable, m ∈ irkImplemented := by decide
      exact this m hU
    rw [(usable_shipped (m := m) hU).b2]
    exact ((img_shipped hI).shape (baseOK_shipped m hI)).2.2.2.1
  have he : irkOdeint false laReal fn t0 t1 y0 o oo m dt fuel =
      irkGuts false laReal fn t0 t1 y0 o dt (irkCoeffs m) oo fuel := by
    unfold irkOdeint
    have : ((if (o.adaptive && (irkCoeffs m : SolverCoeffs ℝ).b2.length == 0) = true then
        { o with adaptive := false } else o) : IrkOpts ℝ) = o := by
      rw [if_neg]; simp; intro _ h; rw [h] at hb; simp at hb
    simp only [hv, Bool.not_true, Bool.and_false, Bool.false_eq_true, if_false, this]
  have hfine := C43_adaptive_partial (fn := fn) (t0 := t0) (t1 := t1) (y0 := y0) (dt := dt) (o := o) (oo := oo) hU hno had
    hn hr hi hw ht hdt (fun t y h hh => regular_dissipative hm hJ hD t y hh) fuel
  rw [he] at hfine
  rcases hfine with hN | ⟨out, hret⟩
  · rw [hN] at h; cases h
  · refine ⟨fuel, out, by rw [he]; exact hret, ?_⟩
    have h0 := adaptive_status had hms hret
    obtain ⟨-, -, -, hlast⟩ := C38_times hret (Or.inl rfl)
    obtain ⟨-, -, -, -, f1, f2⟩ := C38_lengths hret
    exact ⟨h0, f1, f2, hlast h0⟩

theorem harmonic_dissipative (w : ℝ) : Dissipative !![0, w; -w, 0] := by
  intro l v hv hl
  have h0 := hl 0
  have h1 := hl 1
  simp only [Fin.sum_univ_two, Matrix.of_apply, Matrix.cons_val_zero, Matrix.cons_val_one, Complex.ofReal_zero, zero_mul,
    Complex.ofReal_neg, zero_add, add_zero] at h0 h1
  have hq : ∀ k, (l ^ 2 + (w : ℂ) ^ 2) * v k = 0 := by
    intro k
    fin_cases k
    · change (l ^ 2 + (w : ℂ) ^ 2) * v 0 = 0
      linear_combination (-l) * h0 - (w : ℂ) * h1
    · change (l ^ 2 + (w : ℂ) ^ 2) * v 1 = 0
      linear_combination (-l) * h1 + (w : ℂ) * h0
  obtain ⟨k, hk⟩ : ∃ k, v k ≠ 0 := by
    by_contra hc
    push Not at hc
    exact hv (funext hc)
  have hl2 := (mul_eq_zero.mp (hq k)).resolve_right hk
  have hre := congrArg Complex.re hl2
  have him := congrArg Complex.im hl2
  simp only [sq, Complex.add_re, Complex.mul_re, Complex.ofReal_re, Complex.ofReal_im, Complex.zero_re, Complex.add_im,
    Complex.mul_im, Complex.zero_im] at hre him
  by_contra hc
  push Not at hc
  have : l.im = 0 := by nlinarith
  rw [this] at hre
  nlinarith

/-- **C67 and C60 together: the harmonic oscillator.**  The shipped test equation `harmonic` with any of these methods,
any frequency, interval, initial value and initial step: the run returns SUCCESS, reaches `t1`, and the energy
`y0² + y1²` of the computed samples never grows. -/
theorem C67_harmonic {m : ℤ} (hm : m ∈ ([210, 211, 230, 231, 232] : List ℤ)) (w : ℝ) {y0 : Vec ℝ 2}
    (ht : t0 < t1) (hdt : 0 < dt) (had : o.adaptive = true) (hms : o.maxSteps < 0)
    (hno : o.newtonOpts = some no) (hmax : 2 ≤ no.maxit) (htol : no.tol ≠ 0) (hr : no.refreshJac ≠ 0)
    (hat : 0 < o.absTol) (hrt : 0 ≤ o.relTol) :
    ∃ fuel out, irkOdeint false laReal (harmonic w) t0 t1 y0 o OutOpts.dflt m dt fuel = some (.ret out) ∧ out.status = 0 ∧
      out.tVals.head? = some t0 ∧ out.tVals.getLast? = some t1 ∧ out.yVals.head? = some y0 ∧
      out.yVals.Pairwise fun a b => b 0 ^ 2 + b 1 ^ 2 ≤ a 0 ^ 2 + a 1 ^ 2 := by
  have hf : ∀ t y, (harmonic w : OdeFun ℝ 2).fn t y = (!![0, w; -w, 0] : Matrix (Fin 2) (Fin 2) ℝ).mulVec y + (0 : Vec ℝ 2) := by
    intro t y
    funext i
    fin_cases i <;> simp [harmonic, dotProduct, Fin.sum_univ_two]
  have hJ : ∀ t y i j, (harmonic w : OdeFun ℝ 2).jac t y i j = (!![0, w; -w, 0] : Matrix (Fin 2) (Fin 2) ℝ) i j := by
    intro t y i j
    fin_cases i <;> fin_cases j <;> simp [harmonic]
  obtain ⟨fuel, out, h1, h2, h3, h4, h5⟩ := C67_stiff_success (fn := harmonic w) (t0 := t0) (t1 := t1) (y0 := y0) (o := o)
    (oo := OutOpts.dflt) hm hf hJ (fun R => ⟨0, fun t _ k => by simp⟩) (harmonic_dissipative w) (by norm_num) ht hdt had hms
    hno hmax htol hr hat hrt (by simp [OutOpts.dflt]) (fun h => absurd h (by decide))
  refine ⟨fuel, out, h1, h2, h3, h5 rfl rfl, h4, ?_⟩
  have hb : ∃ o' : IrkOpts ℝ, irkGuts false laReal (harmonic w) t0 t1 y0 o' dt (irkCoeffs m) OutOpts.dflt fuel =
      some (.ret out) := by
    unfold irkOdeint at h1
    simp only at h1
    by_cases hv : (!false && !irkVerify (irkCoeffs m : SolverCoeffs ℝ)) = true
    · rw [if_pos hv] at h1; cases h1
    · rw [if_neg hv] at h1; exact ⟨_, h1⟩
  obtain ⟨o', ho'⟩ := hb
  refine C60_harmonic (m := m) ?_ laReal_exact laReal_sound w ho'
  have : ∀ m ∈ ([210, 211, 230, 231, 232] : List ℤ), m ∈ ([200, 210, 211, 230, 231, 232] : List ℤ) := by decide
  exact this m hm

end runs

/-! ### the hypotheses are satisfiable -/

/-- `C63_irk_terminates_partial`: `y' = y²` from 1 to `t1 = 5`, whose exact solution explodes at `t = 1` -/
example : ∃ fuel r, irkGuts false laReal ({ fn := fun _ y k => y k ^ 2, jac := fun _ y _ _ => 2 * y 0 } : OdeFun ℝ 1) 0 5
    (fun _ => 1) (demoOpts 100) 1 (irkCoeffs 211 : SolverCoeffs ℝ) OutOpts.dflt fuel = some r :=
  C63_irk_terminates_partial (no := NewtonOpts.dflt) laReal_exact laReal_sound (Or.inl rfl) (by norm_num [demoOpts]) rfl (by decide)
    (by norm_num [NewtonOpts.dflt]) (by norm_num [demoOpts]) (by norm_num [demoOpts])
    (locallyBounded_of_continuous (by fun_prop))

/-- `C67_bounded`: `y' = sin y`, no step limit -/
example : ∃ fuel r, irkGuts false laReal ({ fn := fun _ y k => Real.sin (y k), jac := fun _ y _ _ => Real.cos (y 0) } :
    OdeFun ℝ 1) 0 5 (fun _ => 1) (demoOpts (-1)) 1 (irkCoeffs 211 : SolverCoeffs ℝ) OutOpts.dflt fuel = some r :=
  C67_bounded (no := NewtonOpts.dflt) laReal_exact laReal_sound (Or.inl rfl) rfl (by decide)
    (by norm_num [NewtonOpts.dflt]) (by norm_num [demoOpts]) (by norm_num [demoOpts])
    (fun _ h => minOrder_stiff (m := 211) (by decide) h) (fun _ _ _ => Real.abs_sin_le_one _) (fun _ _ _ _ => Real.abs_cos_le_one _)

/-- `C67_affine`: the growing `y' = y + t`, no step limit -/
example : ∃ fuel r, irkGuts false laReal ({ fn := fun t y k => y k + t, jac := fun _ _ _ _ => 1 } :
    OdeFun ℝ 1) 0 5 (fun _ => 1) (demoOpts (-1)) 1 (irkCoeffs 211 : SolverCoeffs ℝ) OutOpts.dflt fuel = some r :=
  C67_affine (no := NewtonOpts.dflt) (J := 1) (g := fun t _ => t) laReal_exact laReal_sound (Or.inl rfl) rfl (by decide)
    (by norm_num [NewtonOpts.dflt]) (by norm_num [demoOpts]) (by norm_num [demoOpts])
    (fun _ h => minOrder_stiff (m := 211) (by decide) h) (fun t y => by funext k; simp)
    (fun t y i j => by simp [Matrix.one_apply, Subsingleton.elim i j]) (fun R => ⟨R, fun t h _ => h⟩)

/-- `C67_stiff_success`: a stiff, forced system `y0' = -10⁶ y0 + y1 + t`, `y1' = -y1` -/
example : ∃ fuel out, irkOdeint false laReal
    ({ fn := fun t y => (!![-1000000, 1; 0, -1] : Matrix (Fin 2) (Fin 2) ℝ).mulVec y + fun k => if k = 0 then t else 0,
       jac := fun _ _ i j => (!![-1000000, 1; 0, -1] : Matrix (Fin 2) (Fin 2) ℝ) i j } : OdeFun ℝ 2)
    0 10 (fun _ => 1) (demoOpts (-1)) OutOpts.dflt 211 1 fuel = some (.ret out) ∧ out.status = 0 := by
  obtain ⟨fuel, out, h1, h2, -⟩ := C67_stiff_success (n := 2) (m := 211) (no := NewtonOpts.dflt) (t0 := 0) (t1 := 10)
    (y0 := fun _ => 1) (o := demoOpts (-1)) (oo := OutOpts.dflt) (dt := 1)
    (fn := { fn := fun t y => (!![-1000000, 1; 0, -1] : Matrix (Fin 2) (Fin 2) ℝ).mulVec y + fun k => if k = 0 then t else 0,
             jac := fun _ _ i j => (!![-1000000, 1; 0, -1] : Matrix (Fin 2) (Fin 2) ℝ) i j })
    (by decide) (fun _ _ => rfl) (fun _ _ _ _ => rfl)
    (fun R => ⟨|R|, fun t h k => by
      by_cases hk : k = 0
      · simp only [if_pos hk]; exact h.trans (le_abs_self R)
      · simp only [if_neg hk, abs_zero]; exact abs_nonneg R⟩)
    (by
      intro l v hv hl
      have h0 := hl 0
      have h1 := hl 1
      simp only [Fin.sum_univ_two, Matrix.of_apply, Matrix.cons_val_zero, Matrix.cons_val_one, Complex.ofReal_zero, zero_mul,
        Complex.ofReal_neg, zero_add, Complex.ofReal_one, Complex.ofReal_ofNat] at h0 h1
      by_cases hv1 : v 1 = 0
      · have hv0 : v 0 ≠ 0 := fun h => hv (funext fun k => by fin_cases k <;> assumption)
        rw [hv1, mul_zero, add_zero] at h0
        rw [← mul_right_cancel₀ hv0 h0]
        simp
      · rw [← mul_right_cancel₀ hv1 h1]
        simp)
    (by norm_num) (by norm_num) (by norm_num) rfl (by norm_num [demoOpts]) rfl (by decide) (by norm_num [NewtonOpts.dflt])
    (by norm_num [NewtonOpts.dflt]) (by norm_num [demoOpts]) (by norm_num [demoOpts]) (by simp [OutOpts.dflt])
    (fun h => absurd h (by decide))
  exact ⟨fuel, out, h1, h2⟩

/-- `C67_harmonic`: a fast oscillator -/
example : ∃ fuel out, irkOdeint false laReal (harmonic 1000) 0 10 (fun _ => 1) (demoOpts (-1)) OutOpts.dflt 230 1 fuel =
    some (.ret out) ∧ out.tVals.getLast? = some 10 := by
  obtain ⟨fuel, out, h1, -, -, h2, -⟩ := C67_harmonic (m := 230) (no := NewtonOpts.dflt) (t0 := 0) (t1 := 10) (dt := 1)
    (o := demoOpts (-1)) (y0 := fun _ => 1) (by decide) 1000 (by norm_num) (by norm_num) rfl (by norm_num [demoOpts]) rfl
    (by decide) (by norm_num [NewtonOpts.dflt]) (by norm_num [NewtonOpts.dflt]) (by norm_num [demoOpts]) (by norm_num [demoOpts])
  exact ⟨fuel, out, h1, h2⟩

end Verif
