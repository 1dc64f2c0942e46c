import Verif.IrkShipped
import Verif.ErkTableau
import Verif.FP

/-!
# The shipped tableaux in binary64: a check in rational arithmetic
-/

set_option autoImplicit false
set_option linter.unusedSimpArgs false

namespace Verif
open FP

/-- `⌊2^80 √d⌋ / 2^80` -/
def rootApx (d : ℕ) : ℚ := (Nat.sqrt (d * 4 ^ 80) : ℚ) / 2 ^ 80

theorem rootApx_err (d : ℕ) : |Real.sqrt d - (rootApx d : ℝ)| ≤ 1 / 2 ^ 80 := by
  set s := Nat.sqrt (d * 4 ^ 80) with hs
  have h1 : (s : ℝ) ^ 2 ≤ d * 4 ^ 80 := by
    have := Nat.sqrt_le' (d * 4 ^ 80)
    rw [← hs] at this
    exact_mod_cast this
  have h2 : (d : ℝ) * 4 ^ 80 ≤ ((s : ℝ) + 1) ^ 2 := by
    have := (Nat.lt_succ_sqrt' (d * 4 ^ 80)).le
    rw [← hs] at this
    exact_mod_cast this
  have e : Real.sqrt ((d : ℝ) * 4 ^ 80) = Real.sqrt d * 2 ^ 80 := by
    rw [Real.sqrt_mul (Nat.cast_nonneg d), show (4 : ℝ) ^ 80 = (2 ^ 80) ^ 2 by rw [← pow_mul]; norm_num, Real.sqrt_sq (by positivity)]
  have l1 : (s : ℝ) ≤ Real.sqrt d * 2 ^ 80 := by rw [← e]; exact Real.le_sqrt_of_sq_le h1
  have l2 : Real.sqrt d * 2 ^ 80 ≤ s + 1 := by rw [← e]; exact Real.sqrt_le_iff.2 ⟨by positivity, h2⟩
  have hc : (rootApx d : ℝ) = (s : ℝ) / 2 ^ 80 := by unfold rootApx; push_cast; rfl
  have hp : (0 : ℝ) < 2 ^ 80 := by positivity
  rw [hc, abs_le]
  constructor
  · have : (s : ℝ) / 2 ^ 80 ≤ Real.sqrt d := (div_le_iff₀ hp).2 l1
    have : (0 : ℝ) ≤ 1 / 2 ^ 80 := by positivity
    linarith
  · have : Real.sqrt d ≤ (s + 1) / 2 ^ 80 := (le_div_iff₀ hp).2 l2
    rw [add_div] at this
    linarith

/-- the check for one coefficient: finite, and within `κ (1 + |x|)` of `x = re + im √d` -/
def closeQ (κ : ℚ) {d : ℕ} (r : ℚ) (v : FP) (x : QS d) : Bool :=
  v.isFinite && decide (|v.val - (x.re + x.im * r)| + |x.im| * (1 / 2 ^ 80) ≤ κ * (1 + |x.re + x.im * r| - |x.im| * (1 / 2 ^ 80)))

/-- finite, and within `κ (1 + |x|)` of `x` -/
def Close (κ : ℚ) (v : FP) (x : ℝ) : Prop := v.isFinite = true ∧ |(v.val : ℝ) - x| ≤ κ * (1 + |x|)

theorem close_of {κ : ℚ} (hκ : 0 ≤ κ) {d : ℕ} {v : FP} {x : QS d} (h : closeQ κ (rootApx d) v x = true) : Close κ v (QS.ev x) := by
  unfold closeQ at h
  rw [Bool.and_eq_true] at h
  refine ⟨h.1, ?_⟩
  have h2 := of_decide_eq_true h.2
  have h3 : |(v.val : ℝ) - (x.re + x.im * (rootApx d : ℝ))| + |(x.im : ℝ)| * (1 / 2 ^ 80) ≤
      κ * (1 + |(x.re : ℝ) + x.im * (rootApx d : ℝ)| - |(x.im : ℝ)| * (1 / 2 ^ 80)) := by
    have := (Rat.cast_le (K := ℝ)).2 h2
    push_cast at this
    exact this
  have hev : QS.ev x = x.re + x.im * Real.sqrt d := rfl
  have hd : |QS.ev x - (x.re + x.im * (rootApx d : ℝ))| ≤ |(x.im : ℝ)| * (1 / 2 ^ 80) := by
    rw [hev, show (x.re : ℝ) + x.im * Real.sqrt d - (x.re + x.im * (rootApx d : ℝ)) = x.im * (Real.sqrt d - rootApx d) by ring, abs_mul]
    exact mul_le_mul_of_nonneg_left (rootApx_err d) (abs_nonneg _)
  generalize (x.re : ℝ) + x.im * (rootApx d : ℝ) = e at h3 hd
  generalize |(x.im : ℝ)| * (1 / 2 ^ 80) = w at h3 hd
  generalize QS.ev x = y at hd ⊢
  have hκ' : (0 : ℝ) ≤ κ := by exact_mod_cast hκ
  have t1 : |(v.val : ℝ) - y| ≤ |(v.val : ℝ) - e| + |y - e| := by
    rw [abs_sub_comm y e]; exact abs_sub_le _ _ _
  have t2 : |e| - |y - e| ≤ |y| := by
    have := abs_sub_abs_le_abs_sub e y
    rw [abs_sub_comm e y] at this
    linarith
  have t3 : (κ : ℝ) * (1 + |e| - w) ≤ κ * (1 + |y|) := mul_le_mul_of_nonneg_left (by linarith) hκ'
  linarith

/-- a test for all pairs of entries of two lists of the same length -/
def all2 {α β : Type} (p : α → β → Bool) : List α → List β → Bool
  | [], [] => true
  | a :: l, b :: l' => p a b && all2 p l l'
  | _, _ => false

theorem forall2_of_all2 {α β γ : Type} {p : α → β → Bool} {g : β → γ} {R : α → γ → Prop} (h : ∀ a b, p a b = true → R a (g b)) :
    ∀ {l : List α} {l' : List β}, all2 p l l' = true → List.Forall₂ R l (l'.map g)
  | [], [], _ => .nil
  | a :: l, b :: l', hh => by
    simp only [all2, Bool.and_eq_true] at hh
    exact .cons (h a b hh.1) (forall2_of_all2 h hh.2)
  | [], _ :: _, hh => by simp [all2] at hh
  | _ :: _, [], hh => by simp [all2] at hh

/-- the numbers of a tableau (interpolation matrix excepted) -/
structure TabNums where
  A : List (List FP)
  b : List FP
  c : List FP
  b2 : List FP
  gamma : FP

def tabNums (sc : SolverCoeffs FP) : TabNums := ⟨sc.A, sc.b, sc.c, sc.b2, sc.gamma⟩

/-- the check for a tableau -/
def closeTab (κ : ℚ) {d : ℕ} (t : TabNums) (sq : SolverCoeffs (QS d)) : Bool :=
  let r := rootApx d
  all2 (all2 (closeQ κ r)) t.A sq.A && all2 (closeQ κ r) t.b sq.b && all2 (closeQ κ r) t.c sq.c && all2 (closeQ κ r) t.b2 sq.b2 && closeQ κ r t.gamma sq.gamma

/-- all numbers of a tableau are close to the exact ones -/
structure CloseTab (κ : ℚ) (sc : SolverCoeffs FP) (sr : SolverCoeffs ℝ) : Prop where
  A : List.Forall₂ (List.Forall₂ (Close κ)) sc.A sr.A
  b : List.Forall₂ (Close κ) sc.b sr.b
  c : List.Forall₂ (Close κ) sc.c sr.c
  b2 : List.Forall₂ (Close κ) sc.b2 sr.b2
  gamma : Close κ sc.gamma sr.gamma

theorem closeTab_of {κ : ℚ} (hκ : 0 ≤ κ) {d : ℕ} {sc : SolverCoeffs FP} {sr : SolverCoeffs ℝ} {sq : SolverCoeffs (QS d)} (hi : Img sr sq)
    (h : closeTab κ (tabNums sc) sq = true) : CloseTab κ sc sr := by
  simp only [closeTab, Bool.and_eq_true, tabNums] at h
  obtain ⟨⟨⟨⟨h1, h2⟩, h3⟩, h4⟩, h5⟩ := h
  have hc : ∀ (a : FP) (b : QS d), closeQ κ (rootApx d) a b = true → Close κ a (QS.ev b) := fun a b => close_of hκ
  refine ⟨?_, ?_, ?_, ?_, ?_⟩
  · rw [hi.A]; exact forall2_of_all2 (p := all2 (closeQ κ (rootApx d))) (fun a b hab => forall2_of_all2 hc hab) h1
  · rw [hi.b]; exact forall2_of_all2 hc h2
  · rw [hi.c]; exact forall2_of_all2 hc h3
  · rw [hi.b2]; exact forall2_of_all2 hc h4
  · rw [hi.gamma]; exact close_of hκ h5

/-- some `pow`; the tableaux do not use it -/
@[instance_reducible] def anyPow : Libm := ⟨fun x _ => x⟩

theorem irk_nums (L : Libm) {m : ℤ} (hm : m ∈ irkImplemented) :
    tabNums (irkCoeffs m : SolverCoeffs FP) = tabNums (letI := anyPow; (irkCoeffs m : SolverCoeffs FP)) := by
  simp only [irkImplemented, List.mem_cons, List.not_mem_nil, or_false] at hm
  rcases hm with rfl | rfl | rfl | rfl | rfl | rfl | rfl | rfl | rfl | rfl | rfl | rfl <;> rfl

theorem erk_nums (L : Libm) {m : ℤ} (hm : m ∈ erkImplemented) :
    tabNums (erkCoeffs m : SolverCoeffs FP) = tabNums (letI := anyPow; (erkCoeffs m : SolverCoeffs FP)) := by
  simp only [erkImplemented, List.mem_cons, List.not_mem_nil, or_false] at hm
  rcases hm with rfl | rfl | rfl | rfl | rfl | rfl <;> rfl

theorem imgFP_erk {m : ℤ} (hm : m ∈ erkImplemented) : Img (erkCoeffs m : SolverCoeffs ℝ) (erkCoeffs m : SolverCoeffs (QS 3)) := by
  simp only [erkImplemented, List.mem_cons, List.not_mem_nil, or_false] at hm
  rcases hm with rfl | rfl | rfl | rfl | rfl | rfl
  · show Img (explicitEuler : SolverCoeffs ℝ) (explicitEuler : SolverCoeffs (QS 3))
    constructor <;> simp only [explicitEuler, List.map, map_neg, map_add, map_sub, map_mul, QS.ev_lit, QS.ev_div_lit, ev_q, ev_nq]
  · show Img (rungeKutta4 : SolverCoeffs ℝ) (rungeKutta4 : SolverCoeffs (QS 3))
    constructor <;> simp only [rungeKutta4, List.map, map_neg, map_add, map_sub, map_mul, QS.ev_lit, QS.ev_div_lit, ev_q, ev_nq]
  · show Img (bogackiShampine32 : SolverCoeffs ℝ) (bogackiShampine32 : SolverCoeffs (QS 3))
    constructor <;> simp only [bogackiShampine32, List.map, map_neg, map_add, map_sub, map_mul, QS.ev_lit, QS.ev_div_lit, ev_q, ev_nq]
  · show Img (cashKarp54 : SolverCoeffs ℝ) (cashKarp54 : SolverCoeffs (QS 3))
    constructor <;> simp only [cashKarp54, List.map, map_neg, map_add, map_sub, map_mul, QS.ev_lit, QS.ev_div_lit, ev_q, ev_nq]
  · show Img (dormandPrince54 : SolverCoeffs ℝ) (dormandPrince54 : SolverCoeffs (QS 3))
    constructor <;> simp only [dormandPrince54, List.map, map_neg, map_add, map_sub, map_mul, QS.ev_lit, QS.ev_div_lit, ev_q, ev_nq]
  · show Img (fehlberg54 : SolverCoeffs ℝ) (fehlberg54 : SolverCoeffs (QS 3))
    constructor <;> simp only [fehlberg54, List.map, map_neg, map_add, map_sub, map_mul, QS.ev_lit, QS.ev_div_lit, ev_q, ev_nq]

theorem closeTab_irk : ∀ m ∈ irkImplemented, closeTab (1 / 2 ^ 54) (tabNums (letI := anyPow; (irkCoeffs m : SolverCoeffs FP)))
    (irkCoeffs m : SolverCoeffs (QS (rootOf m))) = true := by
  decide +kernel

theorem closeTab_erk : ∀ m ∈ erkImplemented, closeTab (1 / 2 ^ 53) (tabNums (letI := anyPow; (erkCoeffs m : SolverCoeffs FP)))
    (erkCoeffs m : SolverCoeffs (QS 3)) = true := by
  decide +kernel

end Verif
