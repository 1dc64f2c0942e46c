import Verif.Prop.TestEq
import Mathlib.Analysis.SpecialFunctions.Sqrt
import Mathlib.Analysis.Calculus.Deriv.Inv

/-!
# C55, the three-body problem: what the matrix of `three_body::jac` contains
-/

set_option maxHeartbeats 1000000
set_option linter.unusedSimpArgs false

namespace Verif
open TestEq

/-- **Specification.**  Gravitational force on body `a` in direction `c`, bodies with masses `m` at the places `q`, unit constant. -/
noncomputable def Spec.gravity (m : Fin 3 → ℝ) (q : Fin 3 → Fin 2 → ℝ) (a : Fin 3) (c : Fin 2) : ℝ :=
  ∑ b ∈ Finset.univ.erase a, m a * m b * (q b c - q a c) / (√((q b 0 - q a 0) ^ 2 + (q b 1 - q a 1) ^ 2)) ^ 3

/-- body `b` moved by `s` in direction `d` -/
noncomputable def Spec.moved (q : Fin 3 → Fin 2 → ℝ) (b : Fin 3) (d : Fin 2) (s : ℝ) : Fin 3 → Fin 2 → ℝ :=
  fun b' d' => if b' = b ∧ d' = d then q b' d' + s else q b' d'

/-- derivative of a pair force along a line -/
theorem pull_deriv {x y α β γ w : ℝ} (hr : x ^ 2 + y ^ 2 ≠ 0) (M : ℝ) :
    HasDerivAt (fun s : ℝ => M * (w + s * γ) / (√((x + s * α) ^ 2 + (y + s * β) ^ 2)) ^ 3)
      (M * γ / (√(x ^ 2 + y ^ 2)) ^ 3 - 3 * M * w * (x * α + y * β) / (√(x ^ 2 + y ^ 2)) ^ 5) 0 := by
  have hpos : 0 < x ^ 2 + y ^ 2 := lt_of_le_of_ne (by positivity) hr.symm
  have hs : 0 < √(x ^ 2 + y ^ 2) := Real.sqrt_pos.2 hpos
  have h1 : HasDerivAt (fun s : ℝ => (x + s * α) ^ 2 + (y + s * β) ^ 2) (2 * x * α + 2 * y * β) 0 := by
    have a1 := (((hasDerivAt_id (0 : ℝ)).mul_const α).const_add x).pow 2
    have a2 := (((hasDerivAt_id (0 : ℝ)).mul_const β).const_add y).pow 2
    refine (a1.add a2).congr_deriv ?_
    simp
  have h2 := h1.sqrt (by simpa using hr)
  have h3 := (((hasDerivAt_id (0 : ℝ)).mul_const γ).const_add w).const_mul M
  have h4 := h3.div (h2.pow 3) (by simpa using hs.ne')
  refine h4.congr_deriv ?_
  simp only [id, zero_mul, add_zero, one_mul, Pi.pow_apply, Nat.cast_ofNat]
  have hsq : √(x ^ 2 + y ^ 2) ^ 2 = x ^ 2 + y ^ 2 := Real.sq_sqrt hpos.le
  set r := √(x ^ 2 + y ^ 2) with hrdef
  field_simp
  ring

/-- derivative of the force when body `b` moves in direction `d` -/
theorem gravity_deriv (m : Fin 3 → ℝ) (q : Fin 3 → Fin 2 → ℝ) (a b : Fin 3) (c d : Fin 2)
    (hsep : ∀ b', b' ≠ a → (q b' 0 - q a 0) ^ 2 + (q b' 1 - q a 1) ^ 2 ≠ 0) :
    HasDerivAt (fun s => Spec.gravity m (Spec.moved q b d s) a c)
      (∑ b' ∈ Finset.univ.erase a, (m a * m b' * ((if b' = b ∧ c = d then 1 else 0) - if a = b ∧ c = d then 1 else 0) /
          (√((q b' 0 - q a 0) ^ 2 + (q b' 1 - q a 1) ^ 2)) ^ 3 -
        3 * (m a * m b') * (q b' c - q a c) *
          ((q b' 0 - q a 0) * ((if b' = b ∧ 0 = d then 1 else 0) - if a = b ∧ 0 = d then 1 else 0) +
           (q b' 1 - q a 1) * ((if b' = b ∧ 1 = d then 1 else 0) - if a = b ∧ 1 = d then 1 else 0)) /
          (√((q b' 0 - q a 0) ^ 2 + (q b' 1 - q a 1) ^ 2)) ^ 5)) 0 := by
  unfold Spec.gravity
  refine HasDerivAt.fun_sum fun b' hb' => ?_
  have hb : b' ≠ a := Finset.ne_of_mem_erase hb'
  refine (pull_deriv (hsep b' hb) (m a * m b')).congr_of_eventuallyEq (Filter.Eventually.of_forall fun s => ?_)
  have hmv : ∀ d', Spec.moved q b d s b' d' - Spec.moved q b d s a d' =
      (q b' d' - q a d') + s * ((if b' = b ∧ d' = d then 1 else 0) - if a = b ∧ d' = d then 1 else 0) := by
    intro d'
    unfold Spec.moved
    split_ifs <;> ring
  simp only [hmv]

/-- place of the coordinate `d` of body `b` in the state -/
def posIx (b : Fin 3) (d : Fin 2) : Fin 12 := ⟨2 * b + d, by omega⟩

/-- place of the momentum of body `b` in direction `d` in the state -/
def momIx (b : Fin 3) (d : Fin 2) : Fin 12 := ⟨6 + 2 * b + d, by omega⟩

/-- the slips in the block of the forces: `r13_2` for `r13_3` in `J(11,7)` (test_equations.hpp 374) and `r13_3` for `r12_3` in
`J(9,9)` (test_equations.hpp 358) -/
noncomputable def jacSlip (m1 m2 m3 r12 r13 : ℝ) (a : Fin 3) (c : Fin 2) (b : Fin 3) (d : Fin 2) : ℝ :=
  if c = 1 ∧ d = 1 ∧ ((a = 0 ∧ b = 2) ∨ (a = 2 ∧ b = 0)) then m1 * m3 * (1 / r13 ^ 2 - 1 / r13 ^ 3)
  else if c = 1 ∧ d = 1 ∧ a = 1 ∧ b = 1 then m1 * m2 * (1 / r12 ^ 3 - 1 / r13 ^ 3)
  else 0

/-- the block of the forces: derivative of the forces, with the slips -/
noncomputable def gravBlock (m : Fin 3 → ℝ) (q : Fin 3 → Fin 2 → ℝ) (a b : Fin 3) (c d : Fin 2) : ℝ :=
  ∑ b' ∈ Finset.univ.erase a, (m a * m b' * ((if b' = b ∧ c = d then 1 else 0) - if a = b ∧ c = d then 1 else 0) /
          (√((q b' 0 - q a 0) ^ 2 + (q b' 1 - q a 1) ^ 2)) ^ 3 -
        3 * (m a * m b') * (q b' c - q a c) *
          ((q b' 0 - q a 0) * ((if b' = b ∧ 0 = d then 1 else 0) - if a = b ∧ 0 = d then 1 else 0) +
           (q b' 1 - q a 1) * ((if b' = b ∧ 1 = d then 1 else 0) - if a = b ∧ 1 = d then 1 else 0)) /
          (√((q b' 0 - q a 0) ^ 2 + (q b' 1 - q a 1) ^ 2)) ^ 5)

theorem erase_zero (f : Fin 3 → ℝ) : ∑ b ∈ Finset.univ.erase (0 : Fin 3), f b = f 1 + f 2 := by
  rw [show (Finset.univ.erase (0 : Fin 3)) = {1, 2} by decide]
  exact Finset.sum_pair (by decide)

theorem erase_one (f : Fin 3 → ℝ) : ∑ b ∈ Finset.univ.erase (1 : Fin 3), f b = f 0 + f 2 := by
  rw [show (Finset.univ.erase (1 : Fin 3)) = {0, 2} by decide]
  exact Finset.sum_pair (by decide)

theorem erase_two (f : Fin 3 → ℝ) : ∑ b ∈ Finset.univ.erase (2 : Fin 3), f b = f 0 + f 1 := by
  rw [show (Finset.univ.erase (2 : Fin 3)) = {0, 1} by decide]
  exact Finset.sum_pair (by decide)

theorem dist_root (x z : ℝ) : ∃ R : ℝ, 0 ≤ R ∧ x ^ 2 + z ^ 2 = R ^ 2 :=
  ⟨√(x ^ 2 + z ^ 2), Real.sqrt_nonneg _, (Real.sq_sqrt (by positivity)).symm⟩

theorem grav_block_zero {m1 m2 m3 : ℝ} {y : Vec ℝ 12} (b : Fin 3) (c d : Fin 2) :
    threeBodyJ m1 m2 m3 y (momIx 0 c) (momIx b d) = gravBlock ![m1, m2, m3] (fun b d => y (posIx b d)) 0 b c d +
      jacSlip m1 m2 m3 (√((y 2 - y 0) ^ 2 + (y 3 - y 1) ^ 2)) (√((y 4 - y 0) ^ 2 + (y 5 - y 1) ^ 2)) 0 c b d := by
  obtain ⟨R12, n12, s12⟩ := dist_root (y 2 - y 0) (y 3 - y 1)
  obtain ⟨R13, n13, s13⟩ := dist_root (y 4 - y 0) (y 5 - y 1)
  obtain ⟨R23, n23, s23⟩ := dist_root (y 4 - y 2) (y 5 - y 3)
  have s21 : (y 0 - y 2) ^ 2 + (y 1 - y 3) ^ 2 = R12 ^ 2 := by rw [← s12]; ring
  have s31 : (y 0 - y 4) ^ 2 + (y 1 - y 5) ^ 2 = R13 ^ 2 := by rw [← s13]; ring
  have s32 : (y 2 - y 4) ^ 2 + (y 3 - y 5) ^ 2 = R23 ^ 2 := by rw [← s23]; ring
  unfold gravBlock
  rw [erase_zero]
  fin_cases b <;> fin_cases c <;> fin_cases d <;>
    simp [posIx, momIx, threeBodyJ, jacSlip, ← pow_two, s12, s13, s23, s21, s31, s32, Real.sqrt_sq n12,
      Real.sqrt_sq n13, Real.sqrt_sq n23] <;> ring

theorem grav_block_one {m1 m2 m3 : ℝ} {y : Vec ℝ 12} (b : Fin 3) (c d : Fin 2) :
    threeBodyJ m1 m2 m3 y (momIx 1 c) (momIx b d) = gravBlock ![m1, m2, m3] (fun b d => y (posIx b d)) 1 b c d +
      jacSlip m1 m2 m3 (√((y 2 - y 0) ^ 2 + (y 3 - y 1) ^ 2)) (√((y 4 - y 0) ^ 2 + (y 5 - y 1) ^ 2)) 1 c b d := by
  obtain ⟨R12, n12, s12⟩ := dist_root (y 2 - y 0) (y 3 - y 1)
  obtain ⟨R13, n13, s13⟩ := dist_root (y 4 - y 0) (y 5 - y 1)
  obtain ⟨R23, n23, s23⟩ := dist_root (y 4 - y 2) (y 5 - y 3)
  have s21 : (y 0 - y 2) ^ 2 + (y 1 - y 3) ^ 2 = R12 ^ 2 := by rw [← s12]; ring
  have s31 : (y 0 - y 4) ^ 2 + (y 1 - y 5) ^ 2 = R13 ^ 2 := by rw [← s13]; ring
  have s32 : (y 2 - y 4) ^ 2 + (y 3 - y 5) ^ 2 = R23 ^ 2 := by rw [← s23]; ring
  unfold gravBlock
  rw [erase_one]
  fin_cases b <;> fin_cases c <;> fin_cases d <;>
    simp [posIx, momIx, threeBodyJ, jacSlip, ← pow_two, s12, s13, s23, s21, s31, s32, Real.sqrt_sq n12,
      Real.sqrt_sq n13, Real.sqrt_sq n23] <;> ring

theorem grav_block_two {m1 m2 m3 : ℝ} {y : Vec ℝ 12} (b : Fin 3) (c d : Fin 2) :
    threeBodyJ m1 m2 m3 y (momIx 2 c) (momIx b d) = gravBlock ![m1, m2, m3] (fun b d => y (posIx b d)) 2 b c d +
      jacSlip m1 m2 m3 (√((y 2 - y 0) ^ 2 + (y 3 - y 1) ^ 2)) (√((y 4 - y 0) ^ 2 + (y 5 - y 1) ^ 2)) 2 c b d := by
  obtain ⟨R12, n12, s12⟩ := dist_root (y 2 - y 0) (y 3 - y 1)
  obtain ⟨R13, n13, s13⟩ := dist_root (y 4 - y 0) (y 5 - y 1)
  obtain ⟨R23, n23, s23⟩ := dist_root (y 4 - y 2) (y 5 - y 3)
  have s21 : (y 0 - y 2) ^ 2 + (y 1 - y 3) ^ 2 = R12 ^ 2 := by rw [← s12]; ring
  have s31 : (y 0 - y 4) ^ 2 + (y 1 - y 5) ^ 2 = R13 ^ 2 := by rw [← s13]; ring
  have s32 : (y 2 - y 4) ^ 2 + (y 3 - y 5) ^ 2 = R23 ^ 2 := by rw [← s23]; ring
  unfold gravBlock
  rw [erase_two]
  fin_cases b <;> fin_cases c <;> fin_cases d <;>
    simp [posIx, momIx, threeBodyJ, jacSlip, ← pow_two, s12, s13, s23, s21, s31, s32, Real.sqrt_sq n12,
      Real.sqrt_sq n13, Real.sqrt_sq n23] <;> ring

theorem grav_block {m1 m2 m3 : ℝ} {y : Vec ℝ 12} (a b : Fin 3) (c d : Fin 2) :
    threeBodyJ m1 m2 m3 y (momIx a c) (momIx b d) = gravBlock ![m1, m2, m3] (fun b d => y (posIx b d)) a b c d +
      jacSlip m1 m2 m3 (√((y 2 - y 0) ^ 2 + (y 3 - y 1) ^ 2)) (√((y 4 - y 0) ^ 2 + (y 5 - y 1) ^ 2)) a c b d := by
  fin_cases a
  · exact grav_block_zero b c d
  · exact grav_block_one b c d
  · exact grav_block_two b c d

theorem jac_pos {m1 m2 m3 t : ℝ} {y : Vec ℝ 12} {a b : Fin 3} {c d : Fin 2} :
    (threeBody m1 m2 m3).jac t y (posIx a c) (posIx b d) = (if a = b ∧ c = d then -(1 / (![m1, m2, m3] : Fin 3 → ℝ) a) else 0) := by
  fin_cases a <;> fin_cases b <;> fin_cases c <;> fin_cases d <;> simp [posIx, threeBody, threeBodyJ]

theorem jac_zero {m1 m2 m3 t : ℝ} {y : Vec ℝ 12} {a b : Fin 3} {c d : Fin 2} :
    (threeBody m1 m2 m3).jac t y (posIx a c) (momIx b d) = 0 ∧ (threeBody m1 m2 m3).jac t y (momIx a c) (posIx b d) = 0 := by
  constructor
  · fin_cases a <;> fin_cases b <;> fin_cases c <;> fin_cases d <;> simp [posIx, momIx, threeBody, threeBodyJ]
  · fin_cases a <;> fin_cases b <;> fin_cases c <;> fin_cases d <;> simp [posIx, momIx, threeBody, threeBodyJ]

/-- **C55 (three bodies, entries).**  Where no two bodies coincide, `three_body::jac` contains, in the rows and columns of the momenta,
minus the derivatives of the gravitational forces with respect to the *places*, up to two slips (`jacSlip`); in the rows and columns of
the places minus the reciprocal masses on the diagonal; and zeros elsewhere. -/
theorem C55_three_body_entries {m1 m2 m3 t : ℝ} {y : Vec ℝ 12}
    (h12 : (y 2 - y 0) ^ 2 + (y 3 - y 1) ^ 2 ≠ 0) (h13 : (y 4 - y 0) ^ 2 + (y 5 - y 1) ^ 2 ≠ 0)
    (h23 : (y 4 - y 2) ^ 2 + (y 5 - y 3) ^ 2 ≠ 0) (a b : Fin 3) (c d : Fin 2) :
    HasDerivAt (fun s => Spec.gravity ![m1, m2, m3] (Spec.moved (fun b d => y (posIx b d)) b d s) a c)
      (-(threeBody m1 m2 m3).jac t y (momIx a c) (momIx b d) -
        jacSlip m1 m2 m3 (√((y 2 - y 0) ^ 2 + (y 3 - y 1) ^ 2)) (√((y 4 - y 0) ^ 2 + (y 5 - y 1) ^ 2)) a c b d) 0 ∧
    (threeBody m1 m2 m3).jac t y (posIx a c) (posIx b d) = (if a = b ∧ c = d then -(1 / (![m1, m2, m3] : Fin 3 → ℝ) a) else 0) ∧
    (threeBody m1 m2 m3).jac t y (posIx a c) (momIx b d) = 0 ∧ (threeBody m1 m2 m3).jac t y (momIx a c) (posIx b d) = 0 := by
  have e21 : (y 0 - y 2) ^ 2 + (y 1 - y 3) ^ 2 = (y 2 - y 0) ^ 2 + (y 3 - y 1) ^ 2 := by ring
  have e31 : (y 0 - y 4) ^ 2 + (y 1 - y 5) ^ 2 = (y 4 - y 0) ^ 2 + (y 5 - y 1) ^ 2 := by ring
  have e32 : (y 2 - y 4) ^ 2 + (y 3 - y 5) ^ 2 = (y 4 - y 2) ^ 2 + (y 5 - y 3) ^ 2 := by ring
  refine ⟨?_, jac_pos, jac_zero⟩
  refine (gravity_deriv _ _ a b c d ?_).congr_deriv ?_
  · intro b' hb'
    fin_cases a <;> fin_cases b' <;> first | exact absurd rfl hb' | skip
    all_goals simp [posIx]
    · exact h12
    · exact h13
    · rw [e21]; exact h12
    · exact h23
    · rw [e31]; exact h13
    · rw [e32]; exact h23
  · have := grav_block (m1 := m1) (m2 := m2) (m3 := m3) (y := y) a b c d
    simp only [threeBody, neg_neg]
    rw [this, add_sub_cancel_right]
    rfl

/-- **C55 (three bodies, right-hand side).**  The rates of the momenta are the gravitational forces, except that the force on body 2 in
the second direction has the first coordinate of the distance to body 3 in place of the second. -/
theorem C55_three_body_force {m1 m2 m3 t : ℝ} {y : Vec ℝ 12} (a : Fin 3) (c : Fin 2) :
    (threeBody m1 m2 m3).fn t y (momIx a c) = Spec.gravity ![m1, m2, m3] (fun b d => y (posIx b d)) a c +
      (if a = 1 ∧ c = 1 then m2 * m3 * ((y 4 - y 2) - (y 5 - y 3)) / (√((y 4 - y 2) ^ 2 + (y 5 - y 3) ^ 2)) ^ 3 else 0) ∧
    (threeBody m1 m2 m3).fn t y (posIx a c) = y (momIx a c) / (![m1, m2, m3] : Fin 3 → ℝ) a := by
  obtain ⟨R12, n12, s12⟩ := dist_root (y 2 - y 0) (y 3 - y 1)
  obtain ⟨R13, n13, s13⟩ := dist_root (y 4 - y 0) (y 5 - y 1)
  obtain ⟨R23, n23, s23⟩ := dist_root (y 4 - y 2) (y 5 - y 3)
  have s21 : (y 0 - y 2) ^ 2 + (y 1 - y 3) ^ 2 = R12 ^ 2 := by rw [← s12]; ring
  have s31 : (y 0 - y 4) ^ 2 + (y 1 - y 5) ^ 2 = R13 ^ 2 := by rw [← s13]; ring
  have s32 : (y 2 - y 4) ^ 2 + (y 3 - y 5) ^ 2 = R23 ^ 2 := by rw [← s23]; ring
  unfold Spec.gravity
  constructor
  · obtain rfl | rfl | rfl : a = 0 ∨ a = 1 ∨ a = 2 := by fin_cases a <;> simp
    · rw [erase_zero]
      fin_cases c <;>
        simp [posIx, momIx, threeBody, threeBodyFun, ← pow_two, s12, s13, s23, s21, s31, s32, Real.sqrt_sq n12, Real.sqrt_sq n13,
          Real.sqrt_sq n23] <;> ring
    · rw [erase_one]
      fin_cases c <;>
        simp [posIx, momIx, threeBody, threeBodyFun, ← pow_two, s12, s13, s23, s21, s31, s32, Real.sqrt_sq n12, Real.sqrt_sq n13,
          Real.sqrt_sq n23] <;> ring
    · rw [erase_two]
      fin_cases c <;>
        simp [posIx, momIx, threeBody, threeBodyFun, ← pow_two, s12, s13, s23, s21, s31, s32, Real.sqrt_sq n12, Real.sqrt_sq n13,
          Real.sqrt_sq n23] <;> ring
  · fin_cases a <;> fin_cases c <;> rfl

/-- a state without coinciding bodies -/
example : (triangle 2 - triangle 0) ^ 2 + (triangle 3 - triangle 1) ^ 2 ≠ 0 ∧ (triangle 4 - triangle 0) ^ 2 + (triangle 5 - triangle 1) ^ 2 ≠ 0 ∧
    (triangle 4 - triangle 2) ^ 2 + (triangle 5 - triangle 3) ^ 2 ≠ 0 := by
  simp [triangle]

end Verif
