import Verif.ErkLemmas
import Verif.ErkConverge

/-!
# Arithmetic with rounding errors, and the rounding error of one explicit Runge-Kutta step

`FloatArith F u B` states what the error analysis uses of the `double` operations: a finite operand has a real value, and an
operation whose exact result is at most `B` is finite with an error of at most `u (1 + |exact|)`; differences and products have the
sign of the exact result.  Exact arithmetic satisfies this with
`u = 0`, binary64 with `u = 2^-53` (`Verif.Prop.ErkFloat`).  The lemmas follow the explicit integrator through one step.
-/

set_option autoImplicit false

namespace Verif
open Spec Set

section
variable {F : Type} [Add F] [Sub F] [Mul F] [Div F] [Neg F] [Scalar F]

/-- Arithmetic with unit roundoff `u` on numbers up to `B`.  `val` is the real value of a finite number.  `scale`: a power of a
reciprocal of a number not below the machine precision is not a negative number (it may be NaN or infinite). -/
structure FloatArith (F : Type) [Add F] [Sub F] [Mul F] [Div F] [Neg F] [Scalar F] (u B : ℝ) where
  val : F → ℝ
  add : ∀ x y : F, isFin x = true → isFin y = true → |val x + val y| ≤ B →
    isFin (x + y) = true ∧ |val (x + y) - (val x + val y)| ≤ u * (1 + |val x + val y|)
  sub : ∀ x y : F, isFin x = true → isFin y = true → |val x - val y| ≤ B →
    isFin (x - y) = true ∧ |val (x - y) - (val x - val y)| ≤ u * (1 + |val x - val y|)
  mul : ∀ x y : F, isFin x = true → isFin y = true → |val x * val y| ≤ B →
    isFin (x * y) = true ∧ |val (x * y) - val x * val y| ≤ u * (1 + |val x * val y|)
  div : ∀ x y : F, isFin x = true → isFin y = true → val y ≠ 0 → |val x / val y| ≤ B →
    isFin (x / y) = true ∧ |val (x / y) - val x / val y| ≤ u * (1 + |val x / val y|)
  neg : ∀ x : F, isFin x = true → isFin (-x) = true ∧ val (-x) = - val x
  lit : ∀ q : ℚ, |(q : ℝ)| ≤ B → isFin (lit q : F) = true ∧ |val (lit q : F) - q| ≤ u * (1 + |(q : ℝ)|)
  int : ∀ k : ℕ, k ≤ 1000000 → isFin (Lit.lit (k : ℚ) : F) = true ∧ val (Lit.lit (k : ℚ) : F) = k
  lt : ∀ x y : F, isFin x = true → isFin y = true → (ltb x y = true ↔ val x < val y)
  sub_nonneg : ∀ x y : F, isFin x = true → isFin y = true → val x ≤ val y → isFin (y - x) = true → 0 ≤ val (y - x)
  mul_nonneg : ∀ x y : F, isFin x = true → isFin y = true → 0 ≤ val x → 0 ≤ val y → isFin (x * y) = true → 0 ≤ val (x * y)
  scale : ∀ x y : F, ltb x machinePrecision = false → ltb (spow (Lit.lit 1 / x) y) (Lit.lit 0 : F) = false
  between : ∀ x : F, ltb x (Lit.lit 4 : F) = true → ltb x (Lit.lit 0 : F) = false → isFin x = true

variable {u B : ℝ}

/-- `x` is finite and within `e` of `v` -/
def Near (A : FloatArith F u B) (x : F) (v e : ℝ) : Prop := isFin x = true ∧ |A.val x - v| ≤ e

theorem Near.mono {A : FloatArith F u B} {x : F} {v e e' : ℝ} (h : Near A x v e) (he : e ≤ e') : Near A x v e' := ⟨h.1, h.2.trans he⟩

theorem Near.self {A : FloatArith F u B} {x : F} (h : isFin x = true) : Near A x (A.val x) 0 := ⟨h, by simp⟩

theorem Near.abs_le {A : FloatArith F u B} {x : F} {v e : ℝ} (h : Near A x v e) : |A.val x| ≤ |v| + e := by
  have := abs_add_le (A.val x - v) v
  rw [sub_add_cancel] at this
  linarith [h.2]

/-- the size of everything met in a step: values up to `G`, errors up to one -/
def big (G : ℝ) : ℝ := (G + 1) ^ 2 + 2 * G + 3

theorem big_facts {G : ℝ} (hG : 1 ≤ G) : 1 ≤ big G ∧ G + 1 ≤ big G ∧ 2 * G + 3 ≤ big G ∧ (G + 1) ^ 2 + 1 ≤ big G := by
  unfold big; refine ⟨?_, ?_, ?_, ?_⟩ <;> nlinarith

theorem near_add {A : FloatArith F u B} {G : ℝ} (hG : 1 ≤ G) (hB : big G ≤ B) (hu : 0 ≤ u) {x y : F} {v w e d : ℝ}
    (hx : Near A x v e) (hy : Near A y w d) (hv : |v| ≤ G) (hw : |w| ≤ G) (he : e ≤ 1) (hd : d ≤ 1) :
    Near A (x + y) (v + w) (e + d + u * big G) := by
  obtain ⟨-, -, g3, -⟩ := big_facts hG
  have h1 : |A.val x + A.val y| ≤ 2 * G + 2 := (abs_add_le _ _).trans (by linarith [hx.abs_le, hy.abs_le])
  obtain ⟨a, b⟩ := A.add x y hx.1 hy.1 (by linarith)
  refine ⟨a, ?_⟩
  have e1 : A.val (x + y) - (v + w) = (A.val (x + y) - (A.val x + A.val y)) + ((A.val x - v) + (A.val y - w)) := by ring
  rw [e1]
  have n1 := abs_add_le (A.val (x + y) - (A.val x + A.val y)) ((A.val x - v) + (A.val y - w))
  have n2 := abs_add_le (A.val x - v) (A.val y - w)
  have n3 : u * (1 + |A.val x + A.val y|) ≤ u * big G := mul_le_mul_of_nonneg_left (by linarith) hu
  linarith [hx.2, hy.2]

theorem near_sub {A : FloatArith F u B} {G : ℝ} (hG : 1 ≤ G) (hB : big G ≤ B) (hu : 0 ≤ u) {x y : F} {v w e d : ℝ}
    (hx : Near A x v e) (hy : Near A y w d) (hv : |v| ≤ G) (hw : |w| ≤ G) (he : e ≤ 1) (hd : d ≤ 1) :
    Near A (x - y) (v - w) (e + d + u * big G) := by
  obtain ⟨-, -, g3, -⟩ := big_facts hG
  have h1 : |A.val x - A.val y| ≤ 2 * G + 2 := (abs_sub _ _).trans (by linarith [hx.abs_le, hy.abs_le])
  obtain ⟨a, b⟩ := A.sub x y hx.1 hy.1 (by linarith)
  refine ⟨a, ?_⟩
  have e1 : A.val (x - y) - (v - w) = (A.val (x - y) - (A.val x - A.val y)) + ((A.val x - v) - (A.val y - w)) := by ring
  rw [e1]
  have n1 := abs_add_le (A.val (x - y) - (A.val x - A.val y)) ((A.val x - v) - (A.val y - w))
  have n2 := abs_sub (A.val x - v) (A.val y - w)
  have n3 : u * (1 + |A.val x - A.val y|) ≤ u * big G := mul_le_mul_of_nonneg_left (by linarith) hu
  linarith [hx.2, hy.2]

theorem near_mul {A : FloatArith F u B} {G : ℝ} (hG : 1 ≤ G) (hB : big G ≤ B) (hu : 0 ≤ u) {x y : F} {v w e d : ℝ}
    (hx : Near A x v e) (hy : Near A y w d) (hv : |v| ≤ G) (hw : |w| ≤ G) (he0 : 0 ≤ e) (he : e ≤ 1) (hd : d ≤ 1) :
    Near A (x * y) (v * w) (e * big G + |v| * d + u * big G) := by
  obtain ⟨-, g2, g3, g4⟩ := big_facts hG
  have hx' : |A.val x| ≤ G + 1 := by linarith [hx.abs_le]
  have hy' : |A.val y| ≤ G + 1 := by linarith [hy.abs_le]
  have h1 : |A.val x * A.val y| ≤ (G + 1) ^ 2 := by
    rw [abs_mul, sq]; exact mul_le_mul hx' hy' (abs_nonneg _) (by linarith)
  obtain ⟨a, b⟩ := A.mul x y hx.1 hy.1 (by linarith)
  refine ⟨a, ?_⟩
  have e1 : A.val (x * y) - v * w = (A.val (x * y) - A.val x * A.val y) + ((A.val x - v) * A.val y + v * (A.val y - w)) := by ring
  rw [e1]
  have n1 := abs_add_le (A.val (x * y) - A.val x * A.val y) ((A.val x - v) * A.val y + v * (A.val y - w))
  have n2 := abs_add_le ((A.val x - v) * A.val y) (v * (A.val y - w))
  rw [abs_mul, abs_mul] at n2
  have n3 : u * (1 + |A.val x * A.val y|) ≤ u * big G := mul_le_mul_of_nonneg_left (by linarith) hu
  have n4 : |A.val x - v| * |A.val y| ≤ e * big G := mul_le_mul hx.2 (by linarith) (abs_nonneg _) he0
  have n5 : |v| * |A.val y - w| ≤ |v| * d := mul_le_mul_of_nonneg_left hy.2 (abs_nonneg _)
  linarith

/-! ### the tableaux in the arithmetic -/

/-- the coefficient `x` is the rounded `q` -/
def NearCoef (A : FloatArith F u B) (x : F) (q : ℝ) : Prop := Near A x q (u * (1 + |q|))

theorem nearCoef_lit (A : FloatArith F u B) (r : ℚ) (hr : |(r : ℝ)| ≤ B) : NearCoef A (lit r) (lit r : ℝ) := A.lit r hr

theorem nearCoef_q (A : FloatArith F u B) {a b : ℕ} (ha : a ≤ 1000000) (hb : b ≤ 1000000) (hb0 : 0 < b) (hB : (a : ℝ) ≤ B) :
    NearCoef A (q a b) (q a b : ℝ) := by
  obtain ⟨a1, a2⟩ := A.int a ha
  obtain ⟨b1, b2⟩ := A.int b hb
  have hb1 : (1 : ℝ) ≤ b := by exact_mod_cast hb0
  have e : (q (a : ℚ) (b : ℚ) : ℝ) = a / b := by simp [q]
  have ha0 : (0 : ℝ) ≤ a := by positivity
  have hle : |(a : ℝ) / b| ≤ B := by
    rw [abs_of_nonneg (by positivity)]
    exact (div_le_self ha0 hb1).trans hB
  have := A.div _ _ a1 b1 (by rw [b2]; positivity) (by rw [a2, b2]; exact hle)
  rw [a2, b2] at this
  unfold NearCoef
  rw [e]
  exact this

theorem nearCoef_nq (A : FloatArith F u B) {a b : ℕ} (ha : a ≤ 1000000) (hb : b ≤ 1000000) (hb0 : 0 < b) (hB : (a : ℝ) ≤ B) :
    NearCoef A (nq a b) (nq a b : ℝ) := by
  obtain ⟨a1, a2⟩ := A.int a ha
  obtain ⟨b1, b2⟩ := A.int b hb
  obtain ⟨c1, c2⟩ := A.neg _ a1
  have hb1 : (1 : ℝ) ≤ b := by exact_mod_cast hb0
  have e : (nq (a : ℚ) (b : ℚ) : ℝ) = (-a) / b := by simp [nq]
  have ha0 : (0 : ℝ) ≤ a := by positivity
  have hle : |(-(a : ℝ)) / b| ≤ B := by
    rw [abs_div, abs_neg, abs_of_nonneg ha0, abs_of_nonneg (by positivity)]
    exact (div_le_self ha0 hb1).trans hB
  have := A.div _ _ c1 b1 (by rw [b2]; positivity) (by rw [c2, a2, b2]; exact hle)
  rw [c2, a2, b2] at this
  unfold NearCoef
  rw [e]
  exact this

/-- two tableaux of the same shape with entries related by rounding -/
structure NearTableau (A : FloatArith F u B) (sc : SolverCoeffs F) (sr : SolverCoeffs ℝ) : Prop where
  rows : List.Forall₂ (List.Forall₂ (NearCoef A)) sc.A sr.A
  b : List.Forall₂ (NearCoef A) sc.b sr.b
  c : List.Forall₂ (NearCoef A) sc.c sr.c
  fsal : sc.fsal = sr.fsal

theorem forall2_getD {α β : Type} {R : α → β → Prop} {l : List α} {l' : List β} (h : List.Forall₂ R l l') {d : α} {d' : β} (hd : R d d') (i : ℕ) :
    R (l.getD i d) (l'.getD i d') := by
  induction h generalizing i with
  | nil => simpa using hd
  | cons h1 h2 ih =>
    cases i with
    | zero => simpa using h1
    | succ i => simpa using ih i

section
variable {A : FloatArith F u B} {sc : SolverCoeffs F} {sr : SolverCoeffs ℝ} (h : NearTableau A sc sr) (hB : 0 ≤ B)
include h hB

theorem NearTableau.a (i j : ℕ) : NearCoef A (sc.a i j) (sr.a i j) := by
  have hd : NearCoef A (lit 0 : F) (lit 0 : ℝ) := nearCoef_lit A 0 (by simpa using hB)
  exact forall2_getD (forall2_getD h.rows (d := []) (d' := []) .nil i) hd j

theorem NearTableau.bw (i : ℕ) : NearCoef A (sc.bw i) (sr.bw i) :=
  forall2_getD h.b (nearCoef_lit A 0 (by simpa using hB)) i

theorem NearTableau.cn (i : ℕ) : NearCoef A (sc.cn i) (sr.cn i) :=
  forall2_getD h.c (nearCoef_lit A 0 (by simpa using hB)) i

omit hB in
theorem NearTableau.ns : sc.ns = sr.ns := h.b.length_eq

end

/-- a natural number up to a million, as a rational literal -/
def smallNat (r : ℚ) : Bool := decide (r = (r.num.toNat : ℚ) ∧ r.num.toNat ≤ 1000000)

theorem smallNat_spec {r : ℚ} (h : smallNat r = true) : ∃ k : ℕ, r = k ∧ k ≤ 1000000 :=
  ⟨r.num.toNat, of_decide_eq_true h⟩

theorem nearTableau_shipped (A : FloatArith F u B) (hB : (1000000 : ℝ) ≤ B) {m : ℤ} (hm : m ∈ erkImplemented) :
    NearTableau A (erkCoeffs m) (erkCoeffs m) := by
  have hl : ∀ r : ℚ, |r| ≤ 1000000 → NearCoef A (lit r) (lit r : ℝ) := fun r hr =>
    nearCoef_lit A r (le_trans (by exact_mod_cast hr) hB)
  have hq : ∀ a b : ℚ, smallNat a = true → smallNat b = true → b ≠ 0 → NearCoef A (q a b) (q a b : ℝ) := by
    intro a b ha hb hb0
    obtain ⟨a, rfl, ha1⟩ := smallNat_spec ha
    obtain ⟨b, rfl, hb1⟩ := smallNat_spec hb
    exact nearCoef_q A ha1 hb1 (Nat.pos_of_ne_zero (by exact_mod_cast hb0)) (le_trans (by exact_mod_cast ha1) hB)
  have hn : ∀ a b : ℚ, smallNat a = true → smallNat b = true → b ≠ 0 → NearCoef A (nq a b) (nq a b : ℝ) := by
    intro a b ha hb hb0
    obtain ⟨a, rfl, ha1⟩ := smallNat_spec ha
    obtain ⟨b, rfl, hb1⟩ := smallNat_spec hb
    exact nearCoef_nq A ha1 hb1 (Nat.pos_of_ne_zero (by exact_mod_cast hb0)) (le_trans (by exact_mod_cast ha1) hB)
  have hg : ∀ (x : F) (v : ℝ), NearCoef A x v → NearCoef A (-x) (-v) := by
    rintro x v ⟨h1, h2⟩
    obtain ⟨n1, n2⟩ := A.neg x h1
    refine ⟨n1, ?_⟩
    rw [n2, abs_neg, show -A.val x - -v = -(A.val x - v) by ring, abs_neg]
    exact h2
  simp only [erkImplemented, List.mem_cons, List.not_mem_nil, or_false] at hm
  rcases hm with rfl | rfl | rfl | rfl | rfl | rfl
  all_goals
    constructor
    · repeat' first
        | exact .nil
        | refine .cons ?_ ?_
        | exact hl _ (by norm_num)
        | exact hq _ _ (by decide +kernel) (by decide +kernel) (by norm_num)
        | exact hn _ _ (by decide +kernel) (by decide +kernel) (by norm_num)
        | exact hg _ _ (hl _ (by norm_num))
    · repeat' first
        | exact .nil
        | refine .cons ?_ ?_
        | exact hl _ (by norm_num)
        | exact hq _ _ (by decide +kernel) (by decide +kernel) (by norm_num)
        | exact hn _ _ (by decide +kernel) (by decide +kernel) (by norm_num)
    · repeat' first
        | exact .nil
        | refine .cons ?_ ?_
        | exact hl _ (by norm_num)
        | exact hq _ _ (by decide +kernel) (by decide +kernel) (by norm_num)
    · rfl

/-! ### one step -/

section step
variable {A : FloatArith F u B} {sc : SolverCoeffs F} {sr : SolverCoeffs ℝ} {n : ℕ} {s : ℕ} {G ε g H Y0 M α : ℝ} {dt : F}
  {y : Vec F n} {Y : Vec ℝ n} {K : ℕ → Vec F n} {kr : ℕ → Vec ℝ n}

/-- the bounds of a step: sizes of the data, the error `4 big G u` of the step size and the smallness of the errors -/
structure StepBounds (A : FloatArith F u B) (sc : SolverCoeffs F) (sr : SolverCoeffs ℝ) (s : ℕ) (G ε g H Y0 M α : ℝ) (dt : F)
    (y : Vec F n) (Y : Vec ℝ n) (kr : ℕ → Vec ℝ n) : Prop where
  G1 : 1 ≤ G
  hB : big G ≤ B
  u0 : 0 ≤ u
  ε0 : 0 ≤ ε
  g1 : 1 ≤ g
  H0 : 0 ≤ H
  H1 : H ≤ 1
  hdt : Near A dt H (4 * big G * u)
  small : 20 * (s + 1) * big G ^ 3 * g * (u + ε) ≤ 1
  ha : ∀ i j, NearCoef A (sc.a i j) (sr.a i j)
  hb : ∀ i, NearCoef A (sc.bw i) (sr.bw i)
  hc : ∀ i, NearCoef A (sc.cn i) (sr.cn i)
  a' : ∀ i j, |sr.a i j| ≤ α
  b' : ∀ i, |sr.bw i| ≤ α
  c' : ∀ i, |sr.cn i| ≤ α
  hY : ∀ k, |Y k| ≤ Y0
  hy : ∀ k, Near A (y k) (Y k) 0
  hk : ∀ j < s, ∀ k, |kr j k| ≤ M
  M0 : 0 ≤ M
  Y00 : 0 ≤ Y0
  α0 : 1 ≤ α
  sum : Y0 + s * (α * M) ≤ G
  αG : α ≤ G
  MG : M ≤ G

section
variable (h : StepBounds A sc sr s G ε g H Y0 M α dt y Y kr)
include h

theorem StepBounds.consts : 1 ≤ big G ∧ G ≤ big G ∧ 0 ≤ u ∧ big G * u ≤ 1 / 20 ∧ big G ^ 2 * u ≤ 1 / 20 ∧ big G ^ 3 * u ≤ 1 / 20 ∧
    g * (u + ε) ≤ 1 / 20 ∧ (s + 1) * (big G ^ 3 * g * (u + ε)) ≤ 1 / 20 := by
  obtain ⟨g1, g2, -, -⟩ := big_facts h.G1
  have hu := h.u0
  have hε := h.ε0
  have hg := h.g1
  have sm := h.small
  have hs : (0 : ℝ) ≤ s := by positivity
  have e1 : 20 * (big G ^ 3 * g * (u + ε)) ≤ 1 := by
    have : 0 ≤ (s : ℝ) * (big G ^ 3 * g * (u + ε)) := by positivity
    nlinarith
  have e2 : big G ^ 3 * (u + ε) ≤ big G ^ 3 * g * (u + ε) := by
    have : 0 ≤ big G ^ 3 * (u + ε) := by positivity
    nlinarith
  have e3 : big G ^ 3 * u ≤ big G ^ 3 * (u + ε) := by
    apply mul_le_mul_of_nonneg_left _ (by positivity); linarith
  have e4 : big G ^ 2 * u ≤ big G ^ 3 * u := mul_le_mul_of_nonneg_right (pow_le_pow_right₀ g1 (by norm_num)) hu
  have e5 : big G * u ≤ big G ^ 2 * u := mul_le_mul_of_nonneg_right (by nlinarith) hu
  have e6 : g * (u + ε) ≤ big G ^ 3 * g * (u + ε) := by
    have : 0 ≤ g * (u + ε) := by positivity
    have h3 : 1 ≤ big G ^ 3 := one_le_pow₀ g1
    nlinarith
  refine ⟨g1, by linarith, hu, by linarith, by linarith, by linarith, by linarith, by linarith⟩

theorem nearCoef_big {x : F} {v : ℝ} (hx : NearCoef A x v) (hv : |v| ≤ α) : Near A x v (big G * u) := by
  refine hx.mono ?_
  obtain ⟨-, g2, -, -⟩ := big_facts h.G1
  rw [mul_comm]
  exact mul_le_mul_of_nonneg_right (by linarith [h.αG]) h.u0

/-- the factor `dt*A(i,j)` -/
theorem near_dta {x : F} {v : ℝ} (hx : NearCoef A x v) (hv : |v| ≤ α) : Near A (dt * x) (H * v) (6 * big G ^ 2 * u) := by
  obtain ⟨g1, g2, hu, c1, c2, c3, -, -⟩ := h.consts
  have h1 := nearCoef_big h hx hv
  have := near_mul h.G1 h.hB hu h.hdt h1 (by rw [abs_of_nonneg h.H0]; linarith [h.H1, h.G1]) (hv.trans h.αG) (by positivity)
    (by linarith) (by linarith)
  refine this.mono ?_
  rw [abs_of_nonneg h.H0]
  have e1 : H * (big G * u) ≤ 1 * (big G * u) := mul_le_mul_of_nonneg_right h.H1 (by positivity)
  have e2 : big G * u ≤ big G ^ 2 * u := mul_le_mul_of_nonneg_right (by nlinarith) hu
  nlinarith

/-- one term `dt*A(i,j)*Ks.col(j)` -/
theorem near_term {x z : F} {v w : ℝ} (hx : NearCoef A x v) (hv : |v| ≤ α) (hz : Near A z w (g * (u + ε))) (hw : |w| ≤ M) :
    Near A ((dt * x) * z) (H * v * w) (8 * big G ^ 3 * (u + H * (g * (u + ε)))) := by
  obtain ⟨g1, g2, hu, c1, c2, c3, c4, -⟩ := h.consts
  have hε := h.ε0
  have hH := h.H0
  have hg := h.g1
  have hHv : |H * v| ≤ H * G := by
    rw [abs_mul, abs_of_nonneg hH]; exact mul_le_mul_of_nonneg_left (hv.trans h.αG) hH
  have hHG : H * G ≤ G := by nlinarith [h.H1, h.G1]
  have := near_mul h.G1 h.hB hu (near_dta h hx hv) hz (hHv.trans hHG) (hw.trans h.MG) (by positivity) (by nlinarith) (by linarith)
  refine this.mono ?_
  have e1 : |H * v| * (g * (u + ε)) ≤ H * G * (g * (u + ε)) := mul_le_mul_of_nonneg_right hHv (by positivity)
  have hG3 : G ≤ big G ^ 3 := by nlinarith [pow_le_pow_right₀ g1 (show 1 ≤ 3 by norm_num)]
  have e3 : H * G * (g * (u + ε)) ≤ big G ^ 3 * (H * (g * (u + ε))) := by
    calc H * G * (g * (u + ε)) = G * (H * (g * (u + ε))) := by ring
      _ ≤ _ := mul_le_mul_of_nonneg_right hG3 (by positivity)
  have e6 : u * big G ≤ big G ^ 3 * u := by
    rw [mul_comm]; exact mul_le_mul_of_nonneg_right (by nlinarith [pow_le_pow_right₀ g1 (show 1 ≤ 3 by norm_num)]) hu
  have e7 : 6 * big G ^ 2 * u * big G = 6 * (big G ^ 3 * u) := by ring
  have e8 : 0 ≤ big G ^ 3 * (H * (g * (u + ε))) := by positivity
  have e9 : 0 ≤ big G ^ 3 * u := by positivity
  linarith

/-- the partial sums of a stage argument in exact arithmetic -/
theorem StepBounds.partial_le {w : ℕ → ℝ} (hw : ∀ j, |w j| ≤ α) {m : ℕ} (hm : m ≤ s) (k : Fin n) :
    |(List.range m).foldl (fun tmp j => tmp + H * w j * kr j k) (Y k)| ≤ Y0 + m * (α * M) := by
  induction m with
  | zero => simpa using h.hY k
  | succ m ih =>
    rw [List.range_succ, List.foldl_append]
    simp only [List.foldl_cons, List.foldl_nil]
    refine (abs_add_le _ _).trans ?_
    have h1 := ih (by omega)
    have h2 : |H * w m * kr m k| ≤ α * M := by
      rw [abs_mul, abs_mul, abs_of_nonneg h.H0]
      refine mul_le_mul ?_ (h.hk m (by omega) k) (abs_nonneg _) (by linarith [h.α0])
      calc H * |w m| ≤ 1 * |w m| := mul_le_mul_of_nonneg_right h.H1 (abs_nonneg _)
        _ ≤ α := by rw [one_mul]; exact hw m
    push_cast
    linarith

theorem StepBounds.partial_G {w : ℕ → ℝ} (hw : ∀ j, |w j| ≤ α) {m : ℕ} (hm : m ≤ s) (k : Fin n) :
    |(List.range m).foldl (fun tmp j => tmp + H * w j * kr j k) (Y k)| ≤ G := by
  refine (h.partial_le hw hm k).trans (le_trans ?_ h.sum)
  have : (m : ℝ) ≤ s := by exact_mod_cast hm
  have : (m : ℝ) * (α * M) ≤ s * (α * M) := mul_le_mul_of_nonneg_right this (mul_nonneg (by linarith [h.α0]) h.M0)
  linarith

/-- the sum `tmp += dt*A(i,j)*Ks.col(j)` -/
theorem near_fold {x : ℕ → F} {w : ℕ → ℝ} (hx : ∀ j, NearCoef A (x j) (w j)) (hw : ∀ j, |w j| ≤ α) {m : ℕ} (hm : m ≤ s) (k : Fin n)
    (hK : ∀ j < m, Near A (K j k) (kr j k) (g * (u + ε))) :
    Near A ((List.range m).foldl (fun tmp j => tmp + (dt * x j) * K j k) (y k))
      ((List.range m).foldl (fun tmp j => tmp + H * w j * kr j k) (Y k)) (m * (9 * big G ^ 3 * (u + H * (g * (u + ε))))) := by
  obtain ⟨g1, g2, hu, c1, c2, c3, c4, c5⟩ := h.consts
  have hε := h.ε0
  have hH := h.H0
  have hg := h.g1
  have hων : u + H * (g * (u + ε)) ≤ 2 * (g * (u + ε)) := by
    have : H * (g * (u + ε)) ≤ 1 * (g * (u + ε)) := mul_le_mul_of_nonneg_right h.H1 (by positivity)
    nlinarith
  have hQ : 0 ≤ big G ^ 3 * (u + H * (g * (u + ε))) := by positivity
  have hQQ : big G ^ 3 * (u + H * (g * (u + ε))) ≤ 2 * (big G ^ 3 * g * (u + ε)) := by
    have := mul_le_mul_of_nonneg_left hων (by positivity : 0 ≤ big G ^ 3)
    linarith
  have e6 : u * big G ≤ big G ^ 3 * (u + H * (g * (u + ε))) := by
    have a1 : u ≤ u + H * (g * (u + ε)) := by have : 0 ≤ H * (g * (u + ε)) := by positivity
                                              linarith
    have a2 : big G ≤ big G ^ 3 := by nlinarith [pow_le_pow_right₀ g1 (show 1 ≤ 3 by norm_num)]
    rw [mul_comm]
    exact mul_le_mul a2 a1 hu (by positivity)
  have hms : ∀ m : ℕ, m ≤ s → (m : ℝ) * (9 * big G ^ 3 * (u + H * (g * (u + ε)))) ≤ 1 := by
    intro m hm
    have a1 : (m : ℝ) ≤ s + 1 := by exact_mod_cast (by omega : m ≤ s + 1)
    have a2 : (m : ℝ) * (big G ^ 3 * (u + H * (g * (u + ε)))) ≤ (s + 1) * (2 * (big G ^ 3 * g * (u + ε))) :=
      mul_le_mul a1 hQQ hQ (by positivity)
    linarith
  induction m with
  | zero => simpa using h.hy k
  | succ m ih =>
    rw [List.range_succ, List.foldl_append, List.foldl_append]
    simp only [List.foldl_cons, List.foldl_nil]
    have h1 := ih (by omega) (fun j hj => hK j (by omega))
    have h2 := near_term h (hx m) (hw m) (hK m (by omega)) (h.hk m (by omega) k)
    have h3 : |H * w m * kr m k| ≤ G := by
      have b1 : |H * w m * kr m k| ≤ α * M := by
        rw [abs_mul, abs_mul, abs_of_nonneg hH]
        refine mul_le_mul ?_ (h.hk m (by omega) k) (abs_nonneg _) (by linarith [h.α0])
        calc H * |w m| ≤ 1 * |w m| := mul_le_mul_of_nonneg_right h.H1 (abs_nonneg _)
          _ ≤ α := by rw [one_mul]; exact hw m
      have b2 : 1 * (α * M) ≤ s * (α * M) := by
        refine mul_le_mul_of_nonneg_right ?_ (mul_nonneg (by linarith [h.α0]) h.M0)
        exact_mod_cast (by omega : 1 ≤ s)
      linarith [h.sum, h.Y00]
    have := near_add h.G1 h.hB hu h1 h2 (h.partial_G hw (by omega) k) h3 (hms m (by omega)) (by
      have := hms 1 (by omega); norm_num at this; linarith)
    refine this.mono ?_
    push_cast
    linarith

/-- the arguments of the stages -/
theorem near_stageArg {i : ℕ} (hi : i ≤ s) (hK : ∀ j < i, ∀ k, Near A (K j k) (kr j k) (g * (u + ε))) (k : Fin n) :
    Near A (stageArg sc dt y K i k) (stageArg sr H Y kr i k) (s * (9 * big G ^ 3 * (u + H * (g * (u + ε))))) := by
  have e : ∀ {R : Type} [Add R] [Mul R] (d : R) (a : ℕ → R) (q : ℕ → Vec R n) (z : Vec R n) (l : List ℕ),
      (l.foldl (fun tmp j => fun k => tmp k + (d * a j) * q j k) z) k = l.foldl (fun tmp j => tmp + (d * a j) * q j k) (z k) := by
    intro R _ _ d a q z l
    induction l generalizing z with
    | nil => rfl
    | cons j l ih => simp only [List.foldl_cons]; rw [ih]
  unfold stageArg
  rw [e dt (fun j => sc.a i j), e H (fun j => sr.a i j)]
  refine (near_fold h (h.ha i) (h.a' i) hi k (fun j hj => hK j hj k)).mono ?_
  have := h.ε0
  have := h.H0
  have := h.g1
  have := h.u0
  refine mul_le_mul_of_nonneg_right (by exact_mod_cast hi) ?_
  have := (big_facts h.G1).1
  positivity

/-- the times of the stages -/
theorem near_stageTime {t : F} {T : ℝ} (ht : Near A t T 0) (hT : |T| ≤ G) (i : ℕ) :
    Near A (t + sc.cn i * dt) (T + sr.cn i * H) (7 * big G ^ 2 * u) := by
  obtain ⟨g1, g2, hu, c1, c2, c3, c4, c5⟩ := h.consts
  have h1 := nearCoef_big h (h.hc i) (h.c' i)
  have hc := (h.c' i).trans h.αG
  have h2 := near_mul h.G1 h.hB hu h1 h.hdt hc (by rw [abs_of_nonneg h.H0]; linarith [h.H1, h.G1]) (by positivity) (by linarith) (by linarith)
  have hs : |sr.cn i * H| ≤ G := by
    rw [abs_mul, abs_of_nonneg h.H0]
    nlinarith [abs_nonneg (sr.cn i), h.H1, h.H0]
  have e0 : |sr.cn i| * (4 * big G * u) ≤ (big G - 1) * (4 * big G * u) :=
    mul_le_mul_of_nonneg_right (by have := (big_facts h.G1).2.1; linarith) (by positivity)
  have e2 : big G * u ≤ big G ^ 2 * u := mul_le_mul_of_nonneg_right (by nlinarith) hu
  have h3 := near_add h.G1 h.hB hu ht h2 hT hs (by norm_num) (by nlinarith)
  refine h3.mono ?_
  nlinarith

/-- the weighted sum of the stages -/
theorem near_combine (hns : sc.ns = s) (hnr : sr.ns = s) (hK : ∀ j < s, ∀ k, Near A (K j k) (kr j k) (g * (u + ε))) (k : Fin n) :
    Near A (combine sc K sc.bw k) (combine sr kr sr.bw k) ((s + 1) * (4 * big G ^ 2 * g * (u + ε))) ∧ |combine sr kr sr.bw k| ≤ G := by
  obtain ⟨g1, g2, hu, c1, c2, c3, c4, c5⟩ := h.consts
  have hε := h.ε0
  have hg := h.g1
  have hQ : 0 ≤ big G ^ 2 * g * (u + ε) := by positivity
  have hQQ : big G ^ 2 * g * (u + ε) ≤ big G ^ 3 * g * (u + ε) := by
    have : big G ^ 2 ≤ big G ^ 3 := pow_le_pow_right₀ g1 (by norm_num)
    have h0 : 0 ≤ g * (u + ε) := by positivity
    nlinarith
  have hms : ∀ m : ℕ, m ≤ s → ((m : ℝ) + 1) * (4 * big G ^ 2 * g * (u + ε)) ≤ 1 := by
    intro m hm
    have a1 : (m : ℝ) + 1 ≤ s + 1 := by exact_mod_cast (by omega : m + 1 ≤ s + 1)
    have a2 : ((m : ℝ) + 1) * (big G ^ 2 * g * (u + ε)) ≤ (s + 1) * (big G ^ 3 * g * (u + ε)) :=
      mul_le_mul a1 hQQ hQ (by positivity)
    linarith
  have hu1 : u ≤ g * (u + ε) := by nlinarith
  have e2 : big G * u ≤ big G ^ 2 * u := mul_le_mul_of_nonneg_right (by nlinarith) hu
  have e3 : big G ^ 2 * u ≤ big G ^ 2 * g * (u + ε) := by
    rw [mul_assoc (big G ^ 2)]; exact mul_le_mul_of_nonneg_left hu1 (by positivity)
  have e4 : big G * (g * (u + ε)) ≤ big G ^ 2 * g * (u + ε) := by
    rw [mul_assoc (big G ^ 2)]; exact mul_le_mul_of_nonneg_right (by nlinarith) (by positivity)
  have key : ∀ m : ℕ, m ≤ s → Near A (sumRange m (fun j => K j k * sc.bw j)) (sumRange m (fun j => kr j k * sr.bw j))
      ((m + 1) * (4 * big G ^ 2 * g * (u + ε))) ∧ |sumRange m (fun j => kr j k * sr.bw j)| ≤ m * (α * M) := by
    intro m
    induction m with
    | zero =>
      intro _
      refine ⟨?_, by simp [sumRange]⟩
      have := nearCoef_lit A 0 (by simp; linarith [h.hB])
      unfold sumRange
      simp only [List.range_zero, List.foldl_nil]
      refine Near.mono this ?_
      simp only [lit_real, Rat.cast_zero, abs_zero, add_zero, Nat.cast_zero, zero_add, one_mul, mul_one]
      nlinarith
    | succ m ih =>
      intro hm
      obtain ⟨h1, h1'⟩ := ih (by omega)
      unfold sumRange at h1 h1' ⊢
      rw [List.range_succ, List.foldl_append, List.foldl_append]
      simp only [List.foldl_cons, List.foldl_nil]
      have hb := nearCoef_big h (h.hb m) (h.b' m)
      have hk := h.hk m (by omega) k
      have h2 := near_mul h.G1 h.hB hu (hK m (by omega) k) hb (hk.trans h.MG) ((h.b' m).trans h.αG) (by positivity) (by linarith) (by linarith)
      have hkb : |kr m k * sr.bw m| ≤ α * M := by
        rw [abs_mul, mul_comm]
        exact mul_le_mul (h.b' m) hk (abs_nonneg _) (by linarith [h.α0])
      have hαM : 0 ≤ α * M := mul_nonneg (by linarith [h.α0]) h.M0
      have hcast : ((m : ℝ) + 1) ≤ s := by exact_mod_cast hm
      have hmG : ((m : ℝ) + 1) * (α * M) ≤ G := by
        have := mul_le_mul_of_nonneg_right hcast hαM
        linarith [h.sum, h.Y00]
      have hm0 : (0 : ℝ) ≤ m * (α * M) := by positivity
      have e5 : |kr m k| * (big G * u) ≤ (big G - 1) * (big G * u) := mul_le_mul_of_nonneg_right
        (by have := (big_facts h.G1).2.1; linarith [h.MG]) (by positivity)
      have e7 : g * (u + ε) * big G + |kr m k| * (big G * u) + u * big G ≤ 2 * (big G ^ 2 * g * (u + ε)) := by nlinarith
      have e8 := hms m (by omega)
      have e9 := hms 0 (by omega)
      simp only [Nat.cast_zero, zero_add, one_mul] at e9
      refine ⟨?_, ?_⟩
      · have := near_add h.G1 h.hB hu h1 h2 (h1'.trans (by nlinarith)) (hkb.trans (by nlinarith)) e8 (by linarith)
        refine this.mono ?_
        push_cast
        nlinarith
      · refine (abs_add_le _ _).trans ?_
        push_cast
        linarith
  unfold combine
  rw [hns, hnr]
  obtain ⟨k1, k2⟩ := key s le_rfl
  exact ⟨k1, by linarith [h.sum, h.Y00]⟩

/-- the new value -/
theorem near_yn (hns : sc.ns = s) (hnr : sr.ns = s) (hK : ∀ j < s, ∀ k, Near A (K j k) (kr j k) (g * (u + ε))) (k : Fin n) :
    Near A (y k + dt * combine sc K sc.bw k) (Y k + H * combine sr kr sr.bw k) ((s + 3) * (4 * big G ^ 2 * (u + H * (g * (u + ε))))) := by
  obtain ⟨g1, g2, hu, c1, c2, c3, c4, c5⟩ := h.consts
  have hε := h.ε0
  have hg := h.g1
  have hH := h.H0
  obtain ⟨h1, h2⟩ := near_combine h hns hnr hK k
  have hQQ : big G ^ 2 * g * (u + ε) ≤ big G ^ 3 * g * (u + ε) := by
    have : big G ^ 2 ≤ big G ^ 3 := pow_le_pow_right₀ g1 (by norm_num)
    have h0 : 0 ≤ g * (u + ε) := by positivity
    nlinarith
  have hs0 : (0 : ℝ) ≤ s := by positivity
  have hsm : ((s : ℝ) + 1) * (4 * big G ^ 2 * g * (u + ε)) ≤ 4 / 10 := by
    have := mul_le_mul_of_nonneg_left hQQ (by positivity : (0 : ℝ) ≤ s + 1)
    linarith
  have hsm' : ((s : ℝ) + 1) * (4 * big G ^ 2 * (H * (g * (u + ε)))) ≤ 4 / 10 := by
    refine le_trans ?_ hsm
    calc ((s : ℝ) + 1) * (4 * big G ^ 2 * (H * (g * (u + ε)))) ≤ ((s : ℝ) + 1) * (4 * big G ^ 2 * (1 * (g * (u + ε)))) := by
          refine mul_le_mul_of_nonneg_left (mul_le_mul_of_nonneg_left (mul_le_mul_of_nonneg_right h.H1 (by positivity)) (by positivity)) (by positivity)
      _ = _ := by ring
  have e2 : big G * u ≤ big G ^ 2 * u := mul_le_mul_of_nonneg_right (by nlinarith) hu
  have h3 := near_mul h.G1 h.hB hu h.hdt h1 (by rw [abs_of_nonneg hH]; linarith [h.H1, h.G1]) h2 (by positivity) (by linarith) (by linarith)
  rw [abs_of_nonneg hH] at h3
  have h4 : Near A (dt * combine sc K sc.bw k) (H * combine sr kr sr.bw k)
      ((s + 1) * (4 * big G ^ 2 * (H * (g * (u + ε)))) + 5 * (big G ^ 2 * u)) := h3.mono (by nlinarith)
  have h5 : |H * combine sr kr sr.bw k| ≤ G := by
    rw [abs_mul, abs_of_nonneg hH]; nlinarith [abs_nonneg (combine sr kr sr.bw k), h.H1]
  have hYG : |Y k| ≤ G := by
    have : (0 : ℝ) ≤ s * (α * M) := mul_nonneg hs0 (mul_nonneg (by linarith [h.α0]) h.M0)
    linarith [h.hY k, h.sum]
  have := near_add h.G1 h.hB hu (h.hy k) h4 hYG h5 (by norm_num) (by linarith)
  refine this.mono ?_
  have e9 : 0 ≤ big G ^ 2 * (H * (g * (u + ε))) := by positivity
  have e10 : 0 ≤ (s : ℝ) * (big G ^ 2 * u) := by positivity
  nlinarith

/-- a smaller factor in the stage errors -/
theorem StepBounds.factor {g' : ℝ} (h1 : 1 ≤ g') (hle : g' ≤ g) : StepBounds A sc sr s G ε g' H Y0 M α dt y Y kr where
  G1 := h.G1
  hB := h.hB
  u0 := h.u0
  ε0 := h.ε0
  g1 := h1
  H0 := h.H0
  H1 := h.H1
  hdt := h.hdt
  small := by
    refine le_trans ?_ h.small
    have := h.u0
    have := h.ε0
    have := (big_facts h.G1).1
    exact mul_le_mul_of_nonneg_right (mul_le_mul_of_nonneg_left hle (by positivity)) (by positivity)
  ha := h.ha
  hb := h.hb
  hc := h.hc
  a' := h.a'
  b' := h.b'
  c' := h.c'
  hY := h.hY
  hy := h.hy
  hk := h.hk
  M0 := h.M0
  Y00 := h.Y00
  α0 := h.α0
  sum := h.sum
  αG := h.αG
  MG := h.MG

end

/-- what the analysis uses of the right-hand side: `f` is Lipschitz on the domain `Dom` in both arguments together, and the computed
right-hand side `fF` is finite and within `ε` of `f` there -/
structure RhsBounds (A : FloatArith F u B) (f : ℝ → Vec ℝ n → Vec ℝ n) (fF : F → Vec F n → Vec F n) (Dom : ℝ → Vec ℝ n → Prop) (L ε : ℝ) :
    Prop where
  L0 : 0 ≤ L
  lip : ∀ (t t' : ℝ) (y y' : Vec ℝ n) (e : ℝ), Dom t y → Dom t' y' → |t - t'| ≤ e → (∀ k, |y k - y' k| ≤ e) →
    ∀ k, |f t y k - f t' y' k| ≤ L * e
  acc : ∀ (t : F) (y : Vec F n), isFin t = true → (∀ k, isFin (y k) = true) → Dom (A.val t) (fun k => A.val (y k)) →
    ∀ k, Near A (fF t y k) (f (A.val t) (fun k => A.val (y k)) k) ε

variable {f : ℝ → Vec ℝ n → Vec ℝ n} {fF : F → Vec F n → Vec F n} {Dom : ℝ → Vec ℝ n → Prop} {L : ℝ} {t : F} {T g0 Q d : ℝ}

/-- the computed right-hand side at perturbed arguments -/
theorem rhs_near (hr : RhsBounds A f fF Dom L ε) {x : F} {z : Vec F n} {X : ℝ} {Z : Vec ℝ n} {e e' : ℝ} (hx : Near A x X e)
    (hz : ∀ k, Near A (z k) (Z k) e') (he : 0 ≤ e) (he' : 0 ≤ e') (hd : ∀ t' y', |t' - X| ≤ e + e' → (∀ k, |y' k - Z k| ≤ e + e') → Dom t' y') (k : Fin n) :
    Near A (fF x z k) (f X Z k) (ε + L * (e + e')) := by
  have d1 : Dom (A.val x) (fun k => A.val (z k)) := hd _ _ (hx.2.trans (by linarith)) (fun k => (hz k).2.trans (by linarith))
  have d2 : Dom X Z := hd _ _ (by simp; linarith) (fun k => by simp; linarith)
  have h1 := hr.acc x z hx.1 (fun k => (hz k).1) d1 k
  have h2 := hr.lip _ _ _ _ (e + e') d1 d2 (hx.2.trans (by linarith)) (fun k => (hz k).2.trans (by linarith)) k
  refine ⟨h1.1, ?_⟩
  have := abs_add_le (A.val (fF x z k) - f (A.val x) (fun k => A.val (z k)) k) (f (A.val x) (fun k => A.val (z k)) k - f X Z k)
  rw [sub_add_sub_cancel] at this
  linarith [h1.2]

/-- **All stages** are within `g0 Q^s (u + ε)` of those of exact arithmetic. -/
theorem stages_near (h : StepBounds A sc sr s G ε (g0 * Q ^ s) H Y0 M α dt y Y kr) (hr : RhsBounds A f fF Dom L ε)
    (hg0 : 1 ≤ g0) (hQ : 1 + L * (18 * s * big G ^ 3 + 7 * big G ^ 2) ≤ Q) (ht : Near A t T 0) (hT : |T| ≤ G)
    (hdom : ∀ i < s, ∀ t' y', |t' - (T + sr.cn i * H)| ≤ d → (∀ k, |y' k - stageArg sr H Y kr i k| ≤ d) → Dom t' y')
    (hd : 7 * big G ^ 2 * u + s * (9 * big G ^ 3 * (u + H * (g0 * Q ^ s * (u + ε)))) ≤ d)
    (hkr : ∀ i < s, kr i = f (T + sr.cn i * H) (stageArg sr H Y kr i))
    (hK : ∀ i < s, (K i = fF (t + sc.cn i * dt) (stageArg sc dt y K i)) ∨ ∀ k, Near A (K i k) (kr i k) (g0 * (u + ε))) :
    ∀ j < s, ∀ k, Near A (K j k) (kr j k) (g0 * Q ^ s * (u + ε)) := by
  obtain ⟨g1, g2, hu, -⟩ := h.consts
  have hε := h.ε0
  have hH := h.H0
  have hL := hr.L0
  have hQ1 : 1 ≤ Q := by
    have : 0 ≤ L * (18 * s * big G ^ 3 + 7 * big G ^ 2) := by positivity
    linarith
  have hν : 0 ≤ u + ε := by linarith
  have key : ∀ i ≤ s, ∀ j < i, ∀ k, Near A (K j k) (kr j k) (g0 * Q ^ i * (u + ε)) := by
    intro i
    induction i with
    | zero => intro _ j hj; omega
    | succ i ih =>
      intro hi j hj k
      have hup : ∀ {a b : ℕ}, a ≤ b → g0 * Q ^ a * (u + ε) ≤ g0 * Q ^ b * (u + ε) := fun hab =>
        mul_le_mul_of_nonneg_right (mul_le_mul_of_nonneg_left (pow_le_pow_right₀ hQ1 hab) (by linarith)) hν
      by_cases hji : j < i
      · exact (ih (by omega) j hji k).mono (hup (by omega))
      obtain rfl : j = i := by omega
      rcases hK j (by omega) with hKj | hKj
      swap
      · refine (hKj k).mono ?_
        have := hup (Nat.zero_le (j + 1))
        rwa [pow_zero, mul_one] at this
      have hgi : 1 ≤ g0 * Q ^ j := by have := one_le_pow₀ (n := j) hQ1; nlinarith
      have hgle : g0 * Q ^ j ≤ g0 * Q ^ s := mul_le_mul_of_nonneg_left (pow_le_pow_right₀ hQ1 (by omega)) (by linarith)
      have h' := h.factor hgi hgle
      have a1 := near_stageTime h' ht hT j
      have a2 := near_stageArg h' (by omega : j ≤ s) (ih (by omega))
      have hdj : 7 * big G ^ 2 * u + s * (9 * big G ^ 3 * (u + H * (g0 * Q ^ j * (u + ε)))) ≤ d := by
        refine le_trans ?_ hd
        have := mul_le_mul_of_nonneg_left (mul_le_mul_of_nonneg_right hgle hν) hH
        have := mul_le_mul_of_nonneg_left (add_le_add_right this u) (by positivity : (0 : ℝ) ≤ s * (9 * big G ^ 3))
        linarith
      have a3 := rhs_near hr a1 a2 (by positivity) (by positivity)
        (fun t' y' b1 b2 => hdom j (by omega) t' y' (b1.trans hdj) (fun k => (b2 k).trans hdj)) k
      rw [hKj, hkr j (by omega)]
      refine a3.mono ?_
      -- ε + L (7Γ²u + 9sΓ³(u + H g ν)) ≤ Q g ν
      set gν := g0 * Q ^ j * (u + ε) with hgν
      have b1 : u + ε ≤ gν := by rw [hgν]; nlinarith
      have b2 : H * gν ≤ 1 * gν := mul_le_mul_of_nonneg_right h.H1 (by positivity)
      have b3 : 7 * big G ^ 2 * u + s * (9 * big G ^ 3 * (u + H * gν)) ≤ (18 * s * big G ^ 3 + 7 * big G ^ 2) * gν := by
        have c1 : 7 * big G ^ 2 * u ≤ 7 * big G ^ 2 * gν := mul_le_mul_of_nonneg_left (by linarith) (by positivity)
        have c2 : (s : ℝ) * (9 * big G ^ 3) * (u + H * gν) ≤ s * (9 * big G ^ 3) * (2 * gν) :=
          mul_le_mul_of_nonneg_left (by linarith) (by positivity)
        linarith
      have b4 := mul_le_mul_of_nonneg_left b3 hL
      have b5 : (1 + L * (18 * s * big G ^ 3 + 7 * big G ^ 2)) * gν ≤ Q * gν := mul_le_mul_of_nonneg_right hQ (by linarith)
      have b6 : g0 * Q ^ (j + 1) * (u + ε) = Q * gν := by rw [hgν, pow_succ]; ring
      rw [b6]
      linarith
  exact key s le_rfl

/-- **First same as last**: the last stage is within `g0 (u + ε)` of the right-hand side at the new point. -/
theorem last_near (h : StepBounds A sc sr s G ε (g0 * Q ^ s) H Y0 M α dt y Y kr) (hr : RhsBounds A f fF Dom L ε)
    {i : ℕ} (hi : i < s) (hc1 : sr.cn i = 1) (hrow : ∀ k, stageArg sr H Y kr i k = Y k + H * combine sr kr sr.bw k)
    (ht : Near A t T 0) (hT : |T| ≤ G)
    (hdom : ∀ t' y', |t' - (T + H)| ≤ d → (∀ k, |y' k - (Y k + H * combine sr kr sr.bw k)| ≤ d) → Dom t' y')
    (hd : 7 * big G ^ 2 * u + (9 * s * big G ^ 3 + 4 * (s + 3) * big G ^ 2) * (u + H * (g0 * Q ^ s * (u + ε))) ≤ d)
    (hg : 2 * (1 + L * (14 * big G ^ 2 + 9 * s * big G ^ 3 + 4 * (s + 3) * big G ^ 2)) ≤ g0)
    (hH : H * (2 * (L * (9 * s * big G ^ 3 + 4 * (s + 3) * big G ^ 2) * Q ^ s)) ≤ 1)
    (hK : ∀ j < s, ∀ k, Near A (K j k) (kr j k) (g0 * Q ^ s * (u + ε)))
    (hKi : K i = fF (t + sc.cn i * dt) (stageArg sc dt y K i))
    {x : F} {z : Vec F n} (hx : Near A x (T + H) (7 * big G ^ 2 * u))
    (hz : ∀ k, Near A (z k) (Y k + H * combine sr kr sr.bw k) ((s + 3) * (4 * big G ^ 2 * (u + H * (g0 * Q ^ s * (u + ε)))))) (k : Fin n) :
    Near A (K i k) (f (A.val x) (fun k => A.val (z k)) k) (g0 * (u + ε)) := by
  obtain ⟨g1, g2, hu, -⟩ := h.consts
  have hε := h.ε0
  have hH0 := h.H0
  have hL := hr.L0
  have hν : 0 ≤ u + ε := by linarith
  have hg' := h.g1
  set gν := g0 * Q ^ s * (u + ε) with hgν
  have hgν0 : 0 ≤ gν := by rw [hgν]; positivity
  have hHg : 0 ≤ H * gν := by positivity
  have a1 := near_stageTime h ht hT i
  have a2 := near_stageArg h hi.le (fun j hj => hK j (by omega))
  rw [← hgν] at a2
  rw [hc1, one_mul] at a1
  have e1 : 0 ≤ (s : ℝ) * (9 * big G ^ 3 * (u + H * gν)) := by positivity
  have e2 : 0 ≤ ((s : ℝ) + 3) * (4 * big G ^ 2 * (u + H * gν)) := by positivity
  have e3 : 0 ≤ 7 * big G ^ 2 * u := by positivity
  have d1 : Dom (A.val (t + sc.cn i * dt)) (fun k => A.val (stageArg sc dt y K i k)) := by
    refine hdom _ _ (a1.2.trans (by linarith)) (fun k => ?_)
    have := (a2 k).2
    rw [hrow k] at this
    exact this.trans (by linarith)
  have d2 : Dom (A.val x) (fun k => A.val (z k)) := by
    refine hdom _ _ (hx.2.trans (by linarith)) (fun k => (hz k).2.trans (by linarith))
  have h1 := hr.acc _ _ a1.1 (fun k => (a2 k).1) d1 k
  rw [← hKi] at h1
  have h2 := hr.lip _ _ _ _ (14 * big G ^ 2 * u + (s * (9 * big G ^ 3 * (u + H * gν)) + (s + 3) * (4 * big G ^ 2 * (u + H * gν)))) d1 d2
    (by
      have := abs_sub_le (A.val (t + sc.cn i * dt)) (T + H) (A.val x)
      rw [abs_sub_comm (T + H)] at this
      linarith [a1.2, hx.2]) (fun k => by
      have := abs_sub_le (A.val (stageArg sc dt y K i k)) (Y k + H * combine sr kr sr.bw k) (A.val (z k))
      rw [abs_sub_comm (Y k + H * combine sr kr sr.bw k)] at this
      have b := (a2 k).2
      rw [hrow k] at b
      linarith [(hz k).2]) k
  refine ⟨h1.1, ?_⟩
  have tri := abs_sub_le (A.val (K i k)) (f (A.val (t + sc.cn i * dt)) (fun k => A.val (stageArg sc dt y K i k)) k)
    (f (A.val x) (fun k => A.val (z k)) k)
  set P := 9 * (s : ℝ) * big G ^ 3 + 4 * (s + 3) * big G ^ 2 with hP
  have hP0 : 0 ≤ P := by positivity
  have b1 : L * (14 * big G ^ 2 * u + (s * (9 * big G ^ 3 * (u + H * gν)) + (s + 3) * (4 * big G ^ 2 * (u + H * gν)))) =
      L * (14 * big G ^ 2 + P) * u + L * P * (H * gν) := by rw [hP]; ring
  have b2 : L * P * (H * gν) = H * (2 * (L * P * Q ^ s)) * (g0 / 2 * (u + ε)) := by rw [hgν]; ring
  have hg0 : 0 ≤ g0 := le_trans (by positivity) hg
  have b3 : H * (2 * (L * P * Q ^ s)) * (g0 / 2 * (u + ε)) ≤ 1 * (g0 / 2 * (u + ε)) := mul_le_mul_of_nonneg_right hH (by positivity)
  have b4 : (1 + L * (14 * big G ^ 2 + P)) * (u + ε) ≤ g0 / 2 * (u + ε) := mul_le_mul_of_nonneg_right (by rw [hP]; linarith) hν
  have b5 : L * (14 * big G ^ 2 + P) * u ≤ L * (14 * big G ^ 2 + P) * (u + ε) := mul_le_mul_of_nonneg_left (by linarith) (by positivity)
  rw [b1, b2] at h2
  linarith [h1.2]

end step
end
end Verif
