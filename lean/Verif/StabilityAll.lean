import Verif.StabilityLemmas

/-!
# The stability functions of all implicit methods

The denominator and the numerator are computed from the tableau by the Faddeev–LeVerrier recursion; the difference of the squared moduli
on the left half-plane is a polynomial in two real variables whose coefficients are computed and found to be nonnegative.
-/

set_option linter.unusedSectionVars false

namespace Verif

/-! ### polynomials in one and in two variables -/

def add1 : List ℚ → List ℚ → List ℚ
  | [], q => q
  | a :: p, [] => a :: p
  | a :: p, b :: q => (a + b) :: add1 p q

def mul1 : List ℚ → List ℚ → List ℚ
  | [], _ => []
  | a :: p, q => add1 (q.map (a * ·)) (0 :: mul1 p q)

def add2 : List (List ℚ) → List (List ℚ) → List (List ℚ)
  | [], q => q
  | a :: p, [] => a :: p
  | a :: p, b :: q => add1 a b :: add2 p q

def mul2 : List (List ℚ) → List (List ℚ) → List (List ℚ)
  | [], _ => []
  | a :: p, q => add2 (q.map (mul1 a)) ([] :: mul2 p q)

def neg2 (p : List (List ℚ)) : List (List ℚ) := p.map fun r => r.map (- ·)

/-- value of a polynomial in one variable -/
noncomputable def ev1 (v : ℝ) : List ℚ → ℝ
  | [] => 0
  | a :: p => a + v * ev1 v p

/-- value of a polynomial in `u` whose coefficients are polynomials in `v` -/
noncomputable def ev2 (u v : ℝ) : List (List ℚ) → ℝ
  | [] => 0
  | a :: p => ev1 v a + u * ev2 u v p

theorem ev1_add (v : ℝ) : ∀ p q, ev1 v (add1 p q) = ev1 v p + ev1 v q
  | [], q => by simp [add1, ev1]
  | a :: p, [] => by simp [add1, ev1]
  | a :: p, b :: q => by simp only [add1, ev1, ev1_add v p q]; push_cast; ring

theorem ev1_smul (v : ℝ) (a : ℚ) : ∀ p, ev1 v (p.map (a * ·)) = a * ev1 v p
  | [] => by simp [ev1]
  | b :: p => by simp only [List.map_cons, ev1, ev1_smul v a p]; push_cast; ring

theorem ev1_neg (v : ℝ) : ∀ p, ev1 v (p.map (- ·)) = - ev1 v p
  | [] => by simp [ev1]
  | b :: p => by simp only [List.map_cons, ev1, ev1_neg v p]; push_cast; ring

theorem ev1_mul (v : ℝ) : ∀ p q, ev1 v (mul1 p q) = ev1 v p * ev1 v q
  | [], q => by simp [mul1, ev1]
  | a :: p, q => by simp only [mul1, ev1_add, ev1_smul, ev1, ev1_mul v p q]; push_cast; ring

theorem ev2_add (u v : ℝ) : ∀ p q, ev2 u v (add2 p q) = ev2 u v p + ev2 u v q
  | [], q => by simp [add2, ev2]
  | a :: p, [] => by simp [add2, ev2]
  | a :: p, b :: q => by simp only [add2, ev2, ev1_add, ev2_add u v p q]; ring

theorem ev2_smul (u v : ℝ) (a : List ℚ) : ∀ p, ev2 u v (p.map (mul1 a)) = ev1 v a * ev2 u v p
  | [] => by simp [ev2]
  | b :: p => by simp only [List.map_cons, ev2, ev1_mul, ev2_smul u v a p]; ring

theorem ev2_mul (u v : ℝ) : ∀ p q, ev2 u v (mul2 p q) = ev2 u v p * ev2 u v q
  | [], q => by simp [mul2, ev2]
  | a :: p, q => by simp only [mul2, ev2_add, ev2_smul, ev2, ev1, ev2_mul u v p q]; ring

theorem ev2_neg (u v : ℝ) : ∀ p, ev2 u v (neg2 p) = - ev2 u v p
  | [] => by simp [neg2, ev2]
  | b :: p => by
    have := ev2_neg u v p
    simp only [neg2] at this
    simp only [neg2, List.map_cons, ev2, ev1_neg, this]; ring

/-- multiplication by `-u + i v` of a real and an imaginary part -/
def mulZ (p : List (List ℚ) × List (List ℚ)) : List (List ℚ) × List (List ℚ) :=
  (neg2 (add2 ([] :: p.1) (p.2.map (0 :: ·))), add2 (p.1.map (0 :: ·)) (neg2 ([] :: p.2)))

/-- real and imaginary part of the polynomial with coefficients `q` at `-u + i v` -/
def hornerZ : List ℚ → List (List ℚ) × List (List ℚ)
  | [] => ([], [])
  | q :: qs => let r := mulZ (hornerZ qs); (add2 [[q]] r.1, r.2)

theorem ev2_shift (u v : ℝ) : ∀ p, ev2 u v (p.map (0 :: ·)) = v * ev2 u v p
  | [] => by simp [ev2]
  | b :: p => by simp only [List.map_cons, ev2, ev1, ev2_shift u v p]; push_cast; ring

theorem hornerZ_eq (u v : ℝ) (q : List ℚ) :
    (⟨ev2 u v (hornerZ q).1, ev2 u v (hornerZ q).2⟩ : ℂ) = horner (⟨-u, v⟩ : ℂ) (q.map fun x : ℚ => (x : ℂ)) := by
  induction q with
  | nil => simp only [hornerZ, ev2, List.map_nil, horner]; rfl
  | cons a q ih =>
    simp only [hornerZ, mulZ, List.map_cons, horner, ← ih, ev2_add, ev2_neg, ev2_shift, ev2, ev1]
    apply Complex.ext
    · simp; ring
    · simp; ring

/-- squared modulus at `-u + i v` -/
def normPoly (q : List ℚ) : List (List ℚ) :=
  add2 (mul2 (hornerZ q).1 (hornerZ q).1) (mul2 (hornerZ q).2 (hornerZ q).2)

theorem normPoly_eq (u v : ℝ) (q : List ℚ) :
    ev2 u v (normPoly q) = Complex.normSq (horner (⟨-u, v⟩ : ℂ) (q.map fun x : ℚ => (x : ℂ))) := by
  rw [← hornerZ_eq, Complex.normSq_mk, normPoly, ev2_add, ev2_mul, ev2_mul]

/-- only even powers, with nonnegative coefficients -/
def nonneg1 : List ℚ → Bool
  | [] => true
  | [a] => decide (0 ≤ a)
  | a :: b :: p => decide (0 ≤ a) && decide (b = 0) && nonneg1 p

theorem ev1_nonneg (v : ℝ) : ∀ p, nonneg1 p = true → 0 ≤ ev1 v p
  | [], _ => le_refl _
  | [a], h => by
    simp only [nonneg1, decide_eq_true_eq] at h
    simpa [ev1] using h
  | a :: b :: p, h => by
    simp only [nonneg1, Bool.and_eq_true, decide_eq_true_eq] at h
    obtain ⟨⟨h1, h2⟩, h3⟩ := h
    have h4 := ev1_nonneg v p h3
    have h5 : (0 : ℝ) ≤ a := by exact_mod_cast h1
    simp only [ev1, h2, Rat.cast_zero, zero_add]
    rw [← mul_assoc]
    exact add_nonneg h5 (mul_nonneg (mul_self_nonneg v) h4)

def nonneg2 (p : List (List ℚ)) : Bool := p.all nonneg1

theorem ev2_nonneg {u : ℝ} (hu : 0 ≤ u) (v : ℝ) : ∀ p, nonneg2 p = true → 0 ≤ ev2 u v p
  | [], _ => le_refl _
  | a :: p, h => by
    simp only [nonneg2, List.all_cons, Bool.and_eq_true] at h
    exact add_nonneg (ev1_nonneg v a h.1) (mul_nonneg hu (ev2_nonneg hu v p h.2))

/-! ### denominators and numerators -/

/-- the coefficients of the recursion, `-tr(A B) / k` -/
def flRun {d : ℕ} (s : ℕ) (A : List (List (QS d))) : ℕ → ℕ → List (List (QS d)) → List ℚ
  | 0, _, _ => []
  | n + 1, k, B =>
    let AB := flStep s A 0 B
    let q : ℚ := -(sumR s fun i => ent AB i i).re / k
    q :: flRun s A n (k + 1) (flStep s A ⟨q, 0⟩ B)

/-- coefficients `1..s` of the denominator -/
def denTail (m : ℤ) : List ℚ :=
  let sc : SolverCoeffs (QS (rootOf m)) := irkCoeffs m
  flRun sc.b.length sc.A sc.b.length 1 (idL sc.b.length)

/-- numerator minus denominator, divided by `z` -/
def numTail (m : ℤ) : List ℚ :=
  let sc : SolverCoeffs (QS (rootOf m)) := irkCoeffs m
  (flDotsL sc.b.length sc.A sc.b ((denTail m).map fun x => ⟨x, 0⟩) (idL sc.b.length)).map (·.re)

def denAll (m : ℤ) : List ℚ := 1 :: denTail m
def numAll (m : ℤ) : List ℚ := add1 (denAll m) (0 :: numTail m)

/-- the bound on `|R|² - 1` in the left half-plane: zero for the tableaux given by fractions and square roots -/
def roundoff (m : ℤ) : ℚ :=
  if m = 212 then 1 / 10 ^ 14 else if m = 213 then 1 / 10 ^ 36 else if m = 222 then 1 / 10 ^ 15
  else if m = 243 then 1 / 10 ^ 14 else 0

def allOK (m : ℤ) : Bool :=
  let sc : SolverCoeffs (QS (rootOf m)) := irkCoeffs m
  (sc.A.length == sc.b.length && (sc.A.headD []).length == sc.b.length) &&
    flOK sc.A sc.b (denTail m) (numTail m) &&
    nonneg2 (add2 (normPoly (denAll m)) [[-1]]) &&
    nonneg2 (add2 (mul2 [[1 + roundoff m]] (normPoly (denAll m))) (neg2 (normPoly (numAll m))))

theorem allOK_shipped : ∀ m ∈ irkImplemented, allOK m = true := by decide +kernel

theorem horner_add1 (z : ℂ) : ∀ p q, horner z ((add1 p q).map fun x : ℚ => (x : ℂ)) =
    horner z (p.map fun x : ℚ => (x : ℂ)) + horner z (q.map fun x : ℚ => (x : ℂ))
  | [], q => by simp [add1, horner]
  | a :: p, [] => by simp [add1, horner]
  | a :: p, b :: q => by simp only [add1, List.map_cons, horner, horner_add1 z p q]; push_cast; ring

/-- denominator of the stability function of an implemented method -/
noncomputable def denOf (m : ℤ) (z : ℂ) : ℂ := horner z ((denAll m).map fun x : ℚ => (x : ℂ))
/-- numerator of the stability function of an implemented method -/
noncomputable def numOf (m : ℤ) (z : ℂ) : ℂ := horner z ((numAll m).map fun x : ℚ => (x : ℂ))

/-- where the denominator does not vanish the stability function is the quotient -/
theorem stab_all {m : ℤ} (hm : m ∈ irkImplemented) {z : ℂ} (hz : denOf m z ≠ 0) :
    stabilityFunction z (irkCoeffs m : SolverCoeffs ℝ).A (irkCoeffs m : SolverCoeffs ℝ).b = .ret (numOf m z / denOf m z) := by
  have hok := allOK_shipped m hm
  simp only [allOK, Bool.and_eq_true, beq_iff_eq] at hok
  obtain ⟨⟨⟨⟨h1, h2⟩, h3⟩, -⟩, -⟩ := hok
  have img := img_shipped hm
  have hd : denOf m z = 1 + z * horner z ((denTail m).map fun x : ℚ => (x : ℂ)) := by
    simp [denOf, denAll, horner]
  have hn : numOf m z = denOf m z + z * horner z ((numTail m).map fun x : ℚ => (x : ℂ)) := by
    rw [numOf, numAll, horner_add1, denOf]
    simp [horner]
  rw [stab_of_flOK img.A img.b h1 h2 h3 z (by rw [← hd]; exact hz), ← hd, hn]
  congr 1
  field_simp

/-- the left half-plane: no poles, and the modulus is bounded -/
theorem all_bounds {m : ℤ} (hm : m ∈ irkImplemented) {z : ℂ} (hz : z.re ≤ 0) :
    1 ≤ Complex.normSq (denOf m z) ∧ Complex.normSq (numOf m z) ≤ (1 + (roundoff m : ℝ)) * Complex.normSq (denOf m z) := by
  obtain ⟨x, v⟩ := z
  obtain ⟨u, rfl⟩ : ∃ u, x = -u := ⟨-x, (neg_neg x).symm⟩
  have hu : 0 ≤ u := by simpa using hz
  have hok := allOK_shipped m hm
  simp only [allOK, Bool.and_eq_true] at hok
  obtain ⟨⟨-, h1⟩, h2⟩ := hok
  have e1 := ev2_nonneg hu v _ h1
  have e2 := ev2_nonneg hu v _ h2
  rw [ev2_add, normPoly_eq] at e1
  rw [ev2_add, ev2_neg, ev2_mul, normPoly_eq, normPoly_eq] at e2
  simp only [ev2, ev1] at e1 e2
  push_cast at e1 e2
  simp only [mul_zero, add_zero] at e1 e2
  rw [denOf, numOf]
  exact ⟨by linarith, by linarith⟩

theorem denOf_ne {m : ℤ} (hm : m ∈ irkImplemented) {z : ℂ} (hz : z.re ≤ 0) : denOf m z ≠ 0 := by
  intro h
  have := (all_bounds hm hz).1
  rw [h, map_zero] at this
  exact absurd this (by norm_num)

end Verif
