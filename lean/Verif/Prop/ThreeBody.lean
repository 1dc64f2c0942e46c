import Mathlib.Analysis.Calculus.Deriv.Pi
import Mathlib.Analysis.SpecialFunctions.Sqrt
import Verif.Prop.TestEq

/-!
# Property C89: the energy of the three bodies
-/

set_option linter.unusedSectionVars false

set_option autoImplicit false

namespace Verif

open TestEq

/-- `Y` solves the equation of the three bodies around time `t`, and no two bodies coincide at `t` -/
structure IsMotion (m1 m2 m3 : ℝ) (Y : ℝ → Vec ℝ 12) (t : ℝ) : Prop where
  solves : HasDerivAt Y ((threeBody m1 m2 m3).fn t (Y t)) t
  apart12 : (Y t 2 - Y t 0) ^ 2 + (Y t 3 - Y t 1) ^ 2 ≠ 0
  apart13 : (Y t 4 - Y t 0) ^ 2 + (Y t 5 - Y t 1) ^ 2 ≠ 0
  apart23 : (Y t 4 - Y t 2) ^ 2 + (Y t 5 - Y t 3) ^ 2 ≠ 0

/-- **C89, the claim**: the sum of `kin_energy` and `pot_energy` is constant along the motion. -/
def C89_claim : Prop := ∀ (m1 m2 m3 : ℝ) (Y : ℝ → Vec ℝ 12) (t : ℝ), 0 < m1 → 0 < m2 → 0 < m3 → IsMotion m1 m2 m3 Y t →
  HasDerivAt (fun s => kinEnergy (Y s) + potEnergy m1 m2 m3 (Y s)) 0 t

/-- potential of one pair -/
theorem pair_deriv {u v : ℝ → ℝ} {u' v' t : ℝ} (hu : HasDerivAt u u' t) (hv : HasDerivAt v v' t) (h : u t ^ 2 + v t ^ 2 ≠ 0) (a : ℝ) :
    HasDerivAt (fun s => a / √(u s * u s + v s * v s))
      (-a * (u t * u' + v t * v') * ((u t * u t + v t * v t) * √(u t * u t + v t * v t))⁻¹) t := by
  have hq : u t * u t + v t * v t ≠ 0 := by rw [← sq, ← sq]; exact h
  have hpos : 0 < u t * u t + v t * v t := lt_of_le_of_ne (by nlinarith [mul_self_nonneg (u t), mul_self_nonneg (v t)]) hq.symm
  have hs : √(u t * u t + v t * v t) ≠ 0 := (Real.sqrt_pos.mpr hpos).ne'
  have h1 := (((hu.mul hu).add (hv.mul hv)).sqrt hq)
  have h2 := (h1.inv hs).const_mul a
  refine h2.congr_deriv ?_
  have e : √(u t * u t + v t * v t) ^ 2 = u t * u t + v t * v t := Real.sq_sqrt hpos.le
  simp only [Pi.add_apply, Pi.mul_apply] at *
  rw [e]
  field_simp
  ring

/-- **C89 (rate of change).**  Along every motion the sum of `kin_energy` and `pot_energy` changes at the rate
`∑ᵢ (1 - 1/mᵢ) pᵢ · Fᵢ` (the masses are missing in `kin_energy`) plus the contribution of the wrong force on the second body. -/
theorem C89_rate {m1 m2 m3 : ℝ} {Y : ℝ → Vec ℝ 12} {t : ℝ} (h1 : 0 < m1) (h2 : 0 < m2) (h3 : 0 < m3) (h : IsMotion m1 m2 m3 Y t) :
    HasDerivAt (fun s => kinEnergy (Y s) + potEnergy m1 m2 m3 (Y s))
      ((1 - 1 / m1) * (Y t 6 * (threeBody m1 m2 m3).fn t (Y t) 6 + Y t 7 * (threeBody m1 m2 m3).fn t (Y t) 7) +
       (1 - 1 / m2) * (Y t 8 * (threeBody m1 m2 m3).fn t (Y t) 8 + Y t 9 * (threeBody m1 m2 m3).fn t (Y t) 9) +
       (1 - 1 / m3) * (Y t 10 * (threeBody m1 m2 m3).fn t (Y t) 10 + Y t 11 * (threeBody m1 m2 m3).fn t (Y t) 11) +
       Y t 9 / m2 * (m2 * m3 * ((Y t 4 - Y t 2) - (Y t 5 - Y t 3)) / √((Y t 4 - Y t 2) ^ 2 + (Y t 5 - Y t 3) ^ 2) ^ 3)) t := by
  have hc := hasDerivAt_pi.mp h.solves
  have p12 := pair_deriv ((hc 2).sub (hc 0)) ((hc 3).sub (hc 1)) h.apart12 (-m1 * m2)
  have p13 := pair_deriv ((hc 4).sub (hc 0)) ((hc 5).sub (hc 1)) h.apart13 (m1 * m3)
  have p23 := pair_deriv ((hc 4).sub (hc 2)) ((hc 5).sub (hc 3)) h.apart23 (m2 * m3)
  have hp := (p12.sub p13).sub p23
  have hk := ((((hc 6).mul (hc 6)).add ((hc 7).mul (hc 7))).add (((hc 8).mul (hc 8)).add ((hc 9).mul (hc 9)))).add
    (((hc 10).mul (hc 10)).add ((hc 11).mul (hc 11)))
  have hk' := hk.const_mul (1 / 2)
  have hall := hk'.add hp
  refine (hall.congr_of_eventuallyEq (Filter.Eventually.of_forall fun s => ?_)).congr_deriv ?_
  · simp [kinEnergy, potEnergy]
    norm_num
  · have hr : √((Y t 4 - Y t 2) ^ 2 + (Y t 5 - Y t 3) ^ 2) ^ 3 = ((Y t 4 - Y t 2) * (Y t 4 - Y t 2) + (Y t 5 - Y t 3) * (Y t 5 - Y t 3)) *
        √((Y t 4 - Y t 2) * (Y t 4 - Y t 2) + (Y t 5 - Y t 3) * (Y t 5 - Y t 3)) := by
      rw [show (Y t 4 - Y t 2) ^ 2 + (Y t 5 - Y t 3) ^ 2 =
        (Y t 4 - Y t 2) * (Y t 4 - Y t 2) + (Y t 5 - Y t 3) * (Y t 5 - Y t 3) by ring, pow_succ, Real.sq_sqrt]
      nlinarith [mul_self_nonneg (Y t 4 - Y t 2), mul_self_nonneg (Y t 5 - Y t 3)]
    rw [hr]
    simp [threeBody, threeBodyFun]
    field_simp
    ring

/-- **C89 (where it holds).**  With three unit masses the energy is stationary whenever the difference of the bodies 2 and 3 is the same in
both coordinates.  Missing: everything else, see `C89_rate` and `C89_refuted`. -/
theorem C89_conserved_partial {Y : ℝ → Vec ℝ 12} {t : ℝ} (h : IsMotion 1 1 1 Y t) (hd : Y t 4 - Y t 2 = Y t 5 - Y t 3) :
    HasDerivAt (fun s => kinEnergy (Y s) + potEnergy 1 1 1 (Y s)) 0 t := by
  refine (C89_rate one_pos one_pos one_pos h).congr_deriv ?_
  rw [hd]
  simp

/-- the tangent to the motion through a state -/
noncomputable def tangent (m1 m2 m3 : ℝ) (y : Vec ℝ 12) : ℝ → Vec ℝ 12 := fun s => y + s • (threeBody m1 m2 m3).fn 0 y

theorem tangent_motion {m1 m2 m3 : ℝ} {y : Vec ℝ 12} (h12 : (y 2 - y 0) ^ 2 + (y 3 - y 1) ^ 2 ≠ 0) (h13 : (y 4 - y 0) ^ 2 + (y 5 - y 1) ^ 2 ≠ 0)
    (h23 : (y 4 - y 2) ^ 2 + (y 5 - y 3) ^ 2 ≠ 0) : IsMotion m1 m2 m3 (tangent m1 m2 m3 y) 0 := by
  have h0 : tangent m1 m2 m3 y 0 = y := by simp [tangent]
  refine ⟨?_, by rw [h0]; exact h12, by rw [h0]; exact h13, by rw [h0]; exact h23⟩
  rw [h0]
  exact (((hasDerivAt_id (0 : ℝ)).smul_const ((threeBody m1 m2 m3).fn 0 y)).const_add y).congr_deriv (one_smul _ _)

/-- three unit masses at (0,0), (1,0), (0,1); the second one moves upwards -/
def moving : Vec ℝ 12 := ![0, 0, 1, 0, 0, 1, 0, 0, 0, 1, 0, 0]

/-- **C89 is refuted**, by unit masses: the force on the second body is wrong. -/
theorem C89_refuted : ¬ C89_claim := by
  intro hc
  have hm : IsMotion 1 1 1 (tangent 1 1 1 moving) 0 := by
    refine tangent_motion ?_ ?_ ?_ <;> simp [moving]
  have h1 := hc 1 1 1 _ 0 one_pos one_pos one_pos hm
  have h2 := C89_rate one_pos one_pos one_pos hm
  have e := h1.unique h2
  have h0 : tangent 1 1 1 moving 0 = moving := by simp [tangent]
  rw [h0] at e
  have e1 : ((moving 4 - moving 2) ^ 2 + (moving 5 - moving 3) ^ 2 : ℝ) = 2 := by
    simp [moving]; norm_num
  have e2 : ((moving 4 - moving 2) - (moving 5 - moving 3) : ℝ) = -2 := by
    simp [moving]; norm_num
  have e3 : moving 9 = 1 := by simp [moving]
  rw [e1, e2, e3] at e
  have h3 : (√2 ^ 3 : ℝ) ≠ 0 := by positivity
  field_simp at e
  norm_num at e

/-- one body of mass 2: the energy changes although the formula of the force on it is right, since `kin_energy` leaves out the mass -/
theorem C89_mass : ∃ Y : ℝ → Vec ℝ 12, IsMotion 2 1 1 Y 0 ∧ Y 0 4 - Y 0 2 = Y 0 5 - Y 0 3 ∧
    ¬ HasDerivAt (fun s => kinEnergy (Y s) + potEnergy 2 1 1 (Y s)) 0 0 := by
  have hm : IsMotion 2 1 1 (tangent 2 1 1 ![0, 0, 1, 0, 2, 1, 1, 0, 0, 0, 0, 0]) 0 := by
    refine tangent_motion ?_ ?_ ?_ <;> simp <;> norm_num
  refine ⟨_, hm, by simp [tangent]; norm_num, fun h1 => ?_⟩
  have h2 := C89_rate two_pos one_pos one_pos hm
  have e := h1.unique h2
  have h0 : tangent 2 1 1 ![0, 0, 1, 0, 2, 1, 1, 0, 0, 0, 0, 0] 0 = ![0, 0, 1, 0, 2, 1, 1, 0, 0, 0, 0, 0] := by simp [tangent]
  rw [h0] at e
  simp [threeBody, threeBodyFun] at e
  have h3 : 0 < √(2 * 2 + 1 : ℝ) := Real.sqrt_pos.mpr (by norm_num)
  have h4 : 0 < 2 * 2 / ((2 * 2 + 1) * √(2 * 2 + 1 : ℝ)) + 2 := by positivity
  rcases e with e | e
  · norm_num at e
  · exact h4.ne' e

/-- a motion to which the theorems apply: unit masses at (0,0), (1,0), (2,1) -/
example : HasDerivAt (fun s => kinEnergy (tangent 1 1 1 ![0, 0, 1, 0, 2, 1, 1, 2, 3, 4, 5, 6] s) +
    potEnergy 1 1 1 (tangent 1 1 1 ![0, 0, 1, 0, 2, 1, 1, 2, 3, 4, 5, 6] s)) 0 0 := by
  refine C89_conserved_partial (tangent_motion ?_ ?_ ?_) ?_
  · simp
  · simp; norm_num
  · simp; norm_num
  · simp [tangent]; norm_num

end Verif
