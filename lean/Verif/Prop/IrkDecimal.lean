import Verif.Prop.IrkOrder

/-!
# Property C72: the implicit tableaux given by decimal numbers

RADAU_IIA_95, RADAU_IIA_137, LOBATTO_IIIA_127 and GAUSS_LEGENDRE_147 are given by decimal expansions of about 17 or 38 digits, so
their order conditions can only hold up to rounding.  The simplifying conditions that characterise these methods hold with
residuals of the size of the last digit.
-/

set_option linter.unusedSectionVars false

namespace Verif
open Spec

/-! ### specification: simplifying conditions with residual `ε` -/

namespace Spec
variable {s : ℕ}

/-- `B(p)`: the quadrature `(b, c)` integrates `x⁰, …, x^(p-1)` up to `ε`; a weight `g` at the point 0 may be added -/
def QuadratureUpTo (ε g : ℝ) (b c : Fin s → ℝ) (p : ℕ) : Prop :=
  ∀ k < p, |(g * 0 ^ k + ∑ i, b i * c i ^ k) - 1 / (k + 1)| ≤ ε

/-- `C(q)`: the stages integrate `x⁰, …, x^(q-1)` up to `ε` -/
def StagesUpTo (ε : ℝ) (A : Fin s → Fin s → ℝ) (c : Fin s → ℝ) (q : ℕ) : Prop :=
  ∀ k < q, ∀ i, |(∑ j, A i j * c j ^ k) - c i ^ (k + 1) / (k + 1)| ≤ ε

/-- `D(r)` up to `ε` -/
def AdjointUpTo (ε : ℝ) (A : Fin s → Fin s → ℝ) (b c : Fin s → ℝ) (r : ℕ) : Prop :=
  ∀ k < r, ∀ j, |(∑ i, b i * c i ^ k * A i j) - b j * (1 - c j ^ (k + 1)) / (k + 1)| ≤ ε

end Spec

/-! ### evaluation in `ℚ(√d)` -/

/-- rational and at most `ε` -/
def smallQ {d : ℕ} (ε : ℚ) (x : QS d) : Bool := x.im == 0 && decide (|x.re| ≤ ε)

theorem small_ev {d : ℕ} {ε : ℚ} {x : QS d} (h : smallQ ε x = true) : |QS.ev x| ≤ ε := by
  simp only [smallQ, Bool.and_eq_true, beq_iff_eq, decide_eq_true_eq] at h
  have : QS.ev x = (x.re : ℝ) := by
    change (x.re : ℝ) + x.im * _ = _
    rw [h.1]; simp
  rw [this]
  have h2 : ((|x.re| : ℚ) : ℝ) ≤ (ε : ℝ) := Rat.cast_le.mpr h.2
  push_cast at h2
  exact h2

def quadOK {d : ℕ} (ε : ℚ) (g : QS d) (b c : List (QS d)) (s p : ℕ) : Bool :=
  (List.range p).all fun k =>
    smallQ ε (g * 0 ^ k + sumR s (fun i => b.getD i 0 * c.getD i 0 ^ k) - lit (1 / (k + 1)))

def stagesOK {d : ℕ} (ε : ℚ) (A : List (List (QS d))) (c : List (QS d)) (s q : ℕ) : Bool :=
  (List.range q).all fun k => (List.range s).all fun i =>
    smallQ ε (sumR s (fun j => ent A i j * c.getD j 0 ^ k) - c.getD i 0 ^ (k + 1) * lit (1 / (k + 1)))

def adjointOK {d : ℕ} (ε : ℚ) (A : List (List (QS d))) (b c : List (QS d)) (s r : ℕ) : Bool :=
  (List.range r).all fun k => (List.range s).all fun j =>
    smallQ ε (sumR s (fun i => b.getD i 0 * c.getD i 0 ^ k * ent A i j) - b.getD j 0 * (1 - c.getD j 0 ^ (k + 1)) * lit (1 / (k + 1)))

/-- degrees of `B`, `D` and of the embedded `B` -/
def degrees (m : ℤ) : ℕ × ℕ × ℕ :=
  if m = 212 then (9, 4, 5) else if m = 213 then (13, 6, 7) else if m = 222 then (12, 5, 12) else (14, 7, 7)

/-- residuals of the method and of the embedded quadrature -/
def residuals (m : ℤ) : ℚ × ℚ :=
  if m = 212 then (5 / 10 ^ 17, 5 / 10 ^ 17) else if m = 213 then (2 / 10 ^ 39, 3 / 10 ^ 18) else (2 / 10 ^ 18, 2 / 10 ^ 18)

def decimalOK (m : ℤ) (sq : SolverCoeffs (QS 3)) : Bool :=
  quadOK (residuals m).1 0 sq.b sq.c sq.ns (degrees m).1 && stagesOK (residuals m).1 sq.A sq.c sq.ns sq.ns &&
    adjointOK (residuals m).1 sq.A sq.b sq.c sq.ns (degrees m).2.1 &&
    quadOK (residuals m).2 sq.gamma sq.b2 sq.c sq.ns (degrees m).2.2

theorem decimal_shipped : ∀ m ∈ ([212, 213, 222, 243] : List ℤ), decimalOK m (irkCoeffs m : SolverCoeffs (QS 3)) = true := by
  decide +kernel

section transfer
variable {d : ℕ} {sc : SolverCoeffs ℝ} {sq : SolverCoeffs (QS d)}

theorem Img.quad (h : Img sc sq) {ε : ℚ} (g : QS d) {w : ℕ → ℝ} {l : List (QS d)} (hw : ∀ i, w i = QS.ev (l.getD i 0)) {p : ℕ}
    (hq : quadOK ε g l sq.c sq.ns p = true) :
    QuadratureUpTo (s := sc.ns) ε (QS.ev g) (fun i => w i) (fun i => sc.cn i) p := by
  intro k hk
  simp only [quadOK, List.all_eq_true, List.mem_range] at hq
  have := small_ev (hq k hk)
  rw [sumR_eq, map_sub, map_add, map_mul, map_pow, map_zero, map_sum, QS.ev_lit] at this
  simp only [map_mul, map_pow, ← hw, ← h.cn] at this
  rw [h.sum fun j => w j * sc.cn j ^ k]
  convert this using 4
  simp

theorem Img.stages (h : Img sc sq) {ε : ℚ} {q : ℕ} (hq : stagesOK ε sq.A sq.c sq.ns q = true) :
    StagesUpTo (s := sc.ns) ε (fun i j => sc.a i j) (fun i => sc.cn i) q := by
  intro k hk i
  simp only [stagesOK, List.all_eq_true, List.mem_range] at hq
  have := small_ev (hq k hk i (by rw [← h.ns]; exact i.2))
  rw [sumR_eq, map_sub, map_mul, map_pow, map_sum, QS.ev_lit] at this
  simp only [map_mul, map_pow, ← h.a, ← h.cn] at this
  rw [h.sum fun j => sc.a i j * sc.cn j ^ k]
  convert this using 3
  simp [div_eq_mul_inv]

theorem Img.adjoint (h : Img sc sq) {ε : ℚ} {q : ℕ} (hq : adjointOK ε sq.A sq.b sq.c sq.ns q = true) :
    AdjointUpTo (s := sc.ns) ε (fun i j => sc.a i j) (fun i => sc.bw i) (fun i => sc.cn i) q := by
  intro k hk j
  simp only [adjointOK, List.all_eq_true, List.mem_range] at hq
  have := small_ev (hq k hk j (by rw [← h.ns]; exact j.2))
  rw [sumR_eq, map_sub, map_mul, map_mul, map_sub, map_one, map_pow, map_sum, QS.ev_lit] at this
  simp only [map_mul, map_pow, ← h.a, ← h.bw, ← h.cn] at this
  rw [h.sum fun i => sc.bw i * sc.cn i ^ k * sc.a i j]
  convert this using 3
  simp [div_eq_mul_inv]

end transfer

/-! ### the property -/

/-- **C72.**  Up to rounding of the digits given, i.e. up to `ε` in every condition: RADAU_IIA_95 satisfies `B(9)`, `C(5)`,
`D(4)` (`ε = 5·10⁻¹⁷`); RADAU_IIA_137 `B(13)`, `C(7)`, `D(6)` (`ε = 2·10⁻³⁹`); LOBATTO_IIIA_127 `B(12)`, `C(7)`, `D(5)` and GAUSS_LEGENDRE_147
`B(14)`, `C(7)`, `D(7)` (`ε = 2·10⁻¹⁸`), the conditions that give the orders 9, 13, 12 and 14; and the embedded weights together with
the weight `gamma` of `f(t, y)` integrate polynomials of degree below 5, 7, 12 and 7 up to `ε'`. -/
theorem C72_simplifying {m : ℤ} {p r q : ℕ} {ε ε' : ℚ}
    (hm : (m, p, r, q, ε, ε') ∈ ([(212, 9, 4, 5, 5 / 10 ^ 17, 5 / 10 ^ 17), (213, 13, 6, 7, 2 / 10 ^ 39, 3 / 10 ^ 18),
      (222, 12, 5, 12, 2 / 10 ^ 18, 2 / 10 ^ 18), (243, 14, 7, 7, 2 / 10 ^ 18, 2 / 10 ^ 18)] : List (ℤ × ℕ × ℕ × ℕ × ℚ × ℚ))) :
    let sc : SolverCoeffs ℝ := irkCoeffs m
    QuadratureUpTo ε 0 (fun i : Fin sc.ns => sc.bw i) (fun i => sc.cn i) p ∧
    StagesUpTo ε (fun i j : Fin sc.ns => sc.a i j) (fun i => sc.cn i) sc.ns ∧
    AdjointUpTo ε (fun i j : Fin sc.ns => sc.a i j) (fun i => sc.bw i) (fun i => sc.cn i) r ∧
    QuadratureUpTo ε' sc.gamma (fun i : Fin sc.ns => sc.bw2 i) (fun i => sc.cn i) q := by
  intro sc
  have hd : ∀ x ∈ ([(212, 9, 4, 5, 5 / 10 ^ 17, 5 / 10 ^ 17), (213, 13, 6, 7, 2 / 10 ^ 39, 3 / 10 ^ 18),
      (222, 12, 5, 12, 2 / 10 ^ 18, 2 / 10 ^ 18), (243, 14, 7, 7, 2 / 10 ^ 18, 2 / 10 ^ 18)] : List (ℤ × ℕ × ℕ × ℕ × ℚ × ℚ)),
      x.1 ∈ ([212, 213, 222, 243] : List ℤ) ∧ x.1 ∈ irkImplemented ∧ rootOf x.1 = 3 ∧
        degrees x.1 = (x.2.1, x.2.2.1, x.2.2.2.1) ∧ residuals x.1 = x.2.2.2.2 := by decide +kernel
  obtain ⟨h1, h2, h3, h4, h5⟩ := hd _ hm
  simp only at h1 h2 h3 h4 h5
  have img : Img (irkCoeffs m : SolverCoeffs ℝ) (irkCoeffs m : SolverCoeffs (QS 3)) := by
    have := img_shipped h2
    rw [h3] at this
    exact this
  have hk := decimal_shipped m h1
  simp only [decimalOK, h4, h5, Bool.and_eq_true] at hk
  obtain ⟨⟨⟨k1, k2⟩, k3⟩, k4⟩ := hk
  refine ⟨?_, ?_, img.adjoint k3, ?_⟩
  · have := img.quad 0 img.bw k1
    rwa [map_zero] at this
  · have := img.stages k2
    rwa [← img.ns] at this
  · have := img.quad _ img.bw2 k4
    rwa [← img.gamma] at this

/-- the hypotheses are met: row sums and the last quadrature condition of RADAU_IIA_95 -/
example : |(∑ j : Fin (irkCoeffs 212 : SolverCoeffs ℝ).ns, (irkCoeffs 212 : SolverCoeffs ℝ).bw j *
    (irkCoeffs 212 : SolverCoeffs ℝ).cn j ^ 8) - 1 / 9| ≤ 5 / 10 ^ 17 := by
  have := (C72_simplifying (m := 212) (p := 9) (r := 4) (q := 5) (ε := 5 / 10 ^ 17) (ε' := 5 / 10 ^ 17) (by simp)).1 8 (by norm_num)
  norm_num at this ⊢
  exact this

end Verif
