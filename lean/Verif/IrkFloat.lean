import Verif.BdfFloat
import Verif.IrkConverge
import Verif.IrkStage

/-!
# The stage equations of the implicit integrators in arithmetic with rounding errors
-/

set_option autoImplicit false

namespace Verif
open Set

section
variable {F : Type} [Add F] [Sub F] [Mul F] [Div F] [Neg F] [Scalar F] {n : ℕ} {u B : ℝ} {A : FloatArith F u B}

theorem nearA_zero (A : FloatArith F u B) : Near A (lit 0 : F) 0 0 := by
  obtain ⟨k1, k2⟩ := A.int 0 (by norm_num)
  rw [Nat.cast_zero] at k1 k2
  rw [Nat.cast_zero] at k2
  exact ⟨k1, by rw [k2]; simp⟩

theorem nearA_one (A : FloatArith F u B) : Near A (lit 1 : F) 1 0 := by
  obtain ⟨k3, k4⟩ := A.int 1 (by norm_num)
  rw [Nat.cast_one] at k3 k4
  rw [Nat.cast_one] at k4
  exact ⟨k3, by rw [k4]; simp⟩

theorem near_eye (A : FloatArith F u B) (i l : Fin n) : Near A (eye n i l : F) (if i = l then 1 else 0) 0 := by
  unfold eye
  split_ifs
  · exact nearA_one A
  · exact nearA_zero A

/-- a sum of `m` terms -/
theorem near_sumFin {G : ℝ} (hG : 1 ≤ G) (hB : big G ≤ B) (hu : 0 ≤ u) {m : ℕ} {g : Fin m → F} {v : Fin m → ℝ} {e Γ : ℝ}
    (hg : ∀ i, Near A (g i) (v i) e) (hv : ∀ i, |v i| ≤ Γ) (he : 0 ≤ e) (hΓ : 0 ≤ Γ) (hmG : m * Γ ≤ G) (hm1 : m * (e + u * big G) ≤ 1) :
    Near A (sumFin m g) (∑ i, v i) (m * (e + u * big G)) := by
  have hub : 0 ≤ u * big G := mul_nonneg hu (by linarith [(big_facts hG).1])
  have key : ∀ l : List (Fin m), l.length ≤ m → Near A (l.foldl (fun acc j => acc + g j) (lit 0)) ((l.map v).sum) (l.length * (e + u * big G)) ∧
      |(l.map v).sum| ≤ l.length * Γ := by
    intro l
    induction l using List.reverseRecOn with
    | nil =>
      intro _
      simpa using nearA_zero A
    | append_singleton l a ih =>
      intro hl
      rw [List.length_append, List.length_singleton] at hl
      obtain ⟨i1, i2⟩ := ih (by omega)
      have hlm : (l.length : ℝ) + 1 ≤ m := by exact_mod_cast hl
      have e1 := mul_le_mul_of_nonneg_right hlm (show 0 ≤ e + u * big G by linarith)
      have e2 := mul_le_mul_of_nonneg_right hlm hΓ
      have hl0 : 0 ≤ (l.length : ℝ) * (e + u * big G) := by positivity
      have hl1 : 0 ≤ (l.length : ℝ) * Γ := by positivity
      rw [List.foldl_append, List.map_append, List.sum_append, List.length_append, List.length_singleton]
      simp only [List.foldl_cons, List.foldl_nil, List.map_cons, List.map_nil, List.sum_cons, List.sum_nil, add_zero]
      have := near_add hG hB hu i1 (hg a) (by linarith) (by linarith [hv a]) (by linarith) (by linarith)
      refine ⟨this.mono (by push_cast; linarith), (abs_add_le _ _).trans ?_⟩
      push_cast
      linarith [hv a]
  have := (key (List.finRange m) (by simp)).1
  rw [List.length_finRange] at this
  rw [Fin.sum_univ_def]
  exact this

/-- the sum of squares -/
theorem near_dot {G : ℝ} (hG : 1 ≤ G) (hB : big G ≤ B) (hu : 0 ≤ u) {m : ℕ} {v : Vec F m} (hv : ∀ i, isFin (v i) = true) (hv1 : ∀ i, |A.val (v i)| ≤ 1)
    (hmG : (m : ℝ) ≤ G) (hm1 : m * (2 * (u * big G)) ≤ 1) : Near A (dot v v) (∑ i, A.val (v i) * A.val (v i)) (m * (2 * (u * big G))) := by
  have hub : 0 ≤ u * big G := mul_nonneg hu (by linarith [(big_facts hG).1])
  have h1 : ∀ i, Near A (v i * v i) (A.val (v i) * A.val (v i)) (u * big G) := fun i =>
    (near_mul hG hB hu (Near.self (hv i)) (Near.self (hv i)) (by linarith [hv1 i]) (by linarith [hv1 i]) le_rfl zero_le_one zero_le_one).mono (by simp)
  have := near_sumFin (v := fun i => A.val (v i) * A.val (v i)) (Γ := 1) hG hB hu h1
    (fun i => by rw [abs_mul]; exact mul_le_one₀ (hv1 i) (abs_nonneg _) (hv1 i)) hub zero_le_one (by linarith) (by linarith)
  exact this.mono (by linarith)

/-- what a passed test for a small vector says -/
theorem small_of_test {G : ℝ} (hG : 1 ≤ G) (hB : big G ≤ B) (hu : 0 ≤ u) {m : ℕ} {v : Vec F m} (hv : ∀ i, isFin (v i) = true)
    (hv1 : ∀ i, |A.val (v i)| ≤ 1) (hmG : (m : ℝ) ≤ G) (hm1 : m * (2 * (u * big G)) ≤ 1) {τ : F} (hτ : isFin τ = true) (hτ1 : |A.val τ| ≤ 1)
    (h : ltb (dot v v) (τ * τ) = true) (i : Fin m) : |A.val (v i)| ≤ |A.val τ| + Real.sqrt ((2 * m + 1) * (u * big G)) := by
  have hub : 0 ≤ u * big G := mul_nonneg hu (by linarith [(big_facts hG).1])
  have h1 := near_dot (A := A) hG hB hu hv hv1 hmG hm1
  have h2 : Near A (τ * τ) (A.val τ * A.val τ) (u * big G) :=
    (near_mul hG hB hu (Near.self hτ) (Near.self hτ) (by linarith) (by linarith) le_rfl zero_le_one zero_le_one).mono (by simp)
  have h3 := (A.lt _ _ h1.1 h2.1).mp h
  have h4 := abs_le.mp h1.2
  have h5 := abs_le.mp h2.2
  have h6 : A.val (v i) * A.val (v i) ≤ ∑ i, A.val (v i) * A.val (v i) :=
    Finset.single_le_sum (f := fun i => A.val (v i) * A.val (v i)) (fun i _ => mul_self_nonneg _) (Finset.mem_univ i)
  refine abs_le_of_sq_le_sq ?_ (by positivity)
  have h7 : Real.sqrt ((2 * m + 1) * (u * big G)) ^ 2 = (2 * m + 1) * (u * big G) := Real.sq_sqrt (by positivity)
  have h8 : 0 ≤ |A.val τ| * Real.sqrt ((2 * m + 1) * (u * big G)) := by positivity
  have h9 := sq_abs (A.val τ)
  nlinarith

end

/-! ### the stage equations in exact arithmetic -/

section
variable {n : ℕ}

/-- the stage equations of the method with matrix `a` and nodes `c` -/
noncomputable def stageRes (s : ℕ) (a : ℕ → ℕ → ℝ) (c : ℕ → ℝ) (f : ℝ → Vec ℝ n → Vec ℝ n) (T H : ℝ) (Y : Vec ℝ n) (Z : Vec ℝ (s * n)) : Vec ℝ (s * n) :=
  fun p => Z p - H * ∑ j : Fin s, a p.divNat j * f (T + c j * H) (fun k => Y k + Z (finProdFinEquiv (j, k))) p.modNat

end

section
variable {F : Type} [Add F] [Sub F] [Mul F] [Div F] [Neg F] [Scalar F] {n : ℕ} {u B : ℝ}

/-- Systems near the identity with right-hand sides up to one, if factorised and solved at all, are solved with finite results and a residual of
at most `ρ`; the solution is that of the system with the opposite sign (irk.hpp 460-462). -/
def LuAccurate (A : FloatArith F u B) (la : LinAlg F) (m : ℕ) (ρ : ℝ) : Prop :=
  ∀ (M : Mat F m) (r z : Vec F m), (∀ i l, isFin (M i l) = true) → (∀ i, ∑ l, |A.val (M i l) - if i = l then 1 else 0| ≤ 1 / 4) →
    (∀ i, isFin (r i) = true) → (∀ i, |A.val (r i)| ≤ 1) → stageDir la (la.lu M) r = .ret z →
    (∀ i, isFin (z i) = true) ∧ ∀ i, |∑ l, A.val (M i l) * A.val (z l) + A.val (r i)| ≤ ρ

/-- what a step needs to know about sizes: `m = s n` unknowns, coefficients up to `α`, `f` up to `M` with Lipschitz constant `L`, Jacobi matrix with row
sums up to `Jb`; everything computed stays below `G` -/
structure IConsts (s n : ℕ) (α M L Jb R W G u ε H : ℝ) : Prop where
  hα : 1 ≤ α
  hM : 0 ≤ M
  hL : 0 ≤ L
  hJ : 0 ≤ Jb
  hR : 0 ≤ R
  hW : 0 ≤ W
  hG : (s * n + 1 : ℝ) * (α * (M + Jb + 1)) + R + W + 4 ≤ G
  hu : 0 ≤ u
  hε : 0 ≤ ε
  hH : 0 ≤ H
  hH1 : H ≤ 1
  hφ : ε + 3 * L * (u * big G ^ 2) ≤ 1
  hη : (s * n : ℝ) * (5 * (u * big G ^ 3) + H * α * (ε + 3 * L * (u * big G ^ 2))) + 8 * (u * big G ^ 3) ≤ 1 / 100

omit [Add F] [Sub F] [Mul F] [Div F] [Neg F] [Scalar F] in
theorem IConsts.facts {s n : ℕ} {α M L Jb R W G u ε H : ℝ} (c : IConsts s n α M L Jb R W G u ε H) : 1 ≤ G ∧ 1 ≤ big G ∧ 0 ≤ u * big G ∧ u * big G ≤ u * big G ^ 2 ∧
    u * big G ^ 2 ≤ u * big G ^ 3 ∧ α ≤ G ∧ α * M ≤ G ∧ α * Jb ≤ G ∧ M ≤ G ∧ Jb ≤ G ∧ R + W + 4 ≤ G ∧ ((s * n : ℕ) : ℝ) * (α * M) ≤ G ∧
    ((s * n : ℕ) : ℝ) ≤ G ∧ u ≤ u * big G := by
  have hα := c.hα
  have hM := c.hM
  have hJ := c.hJ
  have hG := c.hG
  have hR := c.hR
  have hW := c.hW
  have hs : (0 : ℝ) ≤ s * n := by positivity
  have e1 : 0 ≤ α * M := by positivity
  have e2 : 0 ≤ α * Jb := by positivity
  have e3 : (s * n + 1 : ℝ) * (α * (M + Jb + 1)) = s * n * (α * M) + s * n * (α * Jb) + s * n * α + α * M + α * Jb + α := by ring
  have e4 : 0 ≤ (s * n : ℝ) * (α * M) := by positivity
  have e5 : 0 ≤ (s * n : ℝ) * (α * Jb) := by positivity
  have e6 : (s * n : ℝ) ≤ s * n * α := le_mul_of_one_le_right hs hα
  have e7 : M ≤ α * M := le_mul_of_one_le_left hM hα
  have e8 : Jb ≤ α * Jb := le_mul_of_one_le_left hJ hα
  rw [e3] at hG
  have hG1 : 1 ≤ G := by linarith
  obtain ⟨b1, -⟩ := big_facts hG1
  have hub : 0 ≤ u * big G := mul_nonneg c.hu (by linarith)
  have hub2 : u * big G ≤ u * big G ^ 2 := by rw [sq, ← mul_assoc]; exact le_mul_of_one_le_right hub b1
  have hub3 : u * big G ^ 2 ≤ u * big G ^ 3 := by
    rw [pow_succ _ 2, ← mul_assoc]; exact le_mul_of_one_le_right (hub.trans hub2) b1
  have hc : ((s * n : ℕ) : ℝ) = s * n := by push_cast; ring
  rw [hc]
  exact ⟨hG1, b1, hub, hub2, hub3, by linarith, by linarith, by linarith, by linarith, by linarith, by linarith, by linarith, by linarith,
    le_mul_of_one_le_right c.hu b1⟩

variable {A : FloatArith F u B} {f : ℝ → Vec ℝ n → Vec ℝ n} {U : ℝ → Vec ℝ n} {fn : OdeFun F n} {sc : SolverCoeffs F} {sr : SolverCoeffs ℝ}
  {a b α M L Jb R W G ε H : ℝ} {t dt : F} {y : Vec F n}

/-- where the computed right-hand side is evaluated and how far it is from the exact one -/
structure IRhs (A : FloatArith F u B) (f : ℝ → Vec ℝ n → Vec ℝ n) (fn : OdeFun F n) (sc : SolverCoeffs F) (sr : SolverCoeffs ℝ) (t dt : F) (y : Vec F n)
    (L M H ε r ω : ℝ) : Prop where
  acc : ∀ (j : Fin sc.ns) (t' : F) (y' : Vec F n) (Z : Vec ℝ n), isFin t' = true → (∀ k, isFin (y' k) = true) → (∀ k, |Z k| ≤ r) →
    |A.val t' - (A.val t + sr.cn j * H)| ≤ ω → (∀ k, |A.val (y' k) - (A.val (y k) + Z k)| ≤ ω) →
    ∀ k, Near A (fn.fn t' y' k) (f (A.val t + sr.cn j * H) (fun k => A.val (y k) + Z k) k) (ε + L * ω)
  bd : ∀ (j : Fin sc.ns) (Z : Vec ℝ n), (∀ k, |Z k| ≤ r) → ∀ k, |f (A.val t + sr.cn j * H) (fun k => A.val (y k) + Z k) k| ≤ M
  lip : ∀ (j : Fin sc.ns) (Z Z' : Vec ℝ n), (∀ k, |Z k| ≤ r) → (∀ k, |Z' k| ≤ r) →
    ‖f (A.val t + sr.cn j * H) (fun k => A.val (y k) + Z k) - f (A.val t + sr.cn j * H) (fun k => A.val (y k) + Z' k)‖ ≤ L * ‖Z - Z'‖

/-- a coefficient of the tableau -/
theorem coef_near (c : IConsts sc.ns n α M L Jb R W G u ε H) {x : F} {q : ℝ} (h : NearCoef A x q) (hq : |q| ≤ α) : Near A x q (u * big G) := by
  obtain ⟨hG1, b1, hub, hub2, hub3, g1, g2, g3, g4, g5, g6, g7, g8, g9⟩ := c.facts
  obtain ⟨-, q2, -⟩ := big_facts hG1
  exact Near.mono h (mul_le_mul_of_nonneg_left (by linarith) c.hu)

/-- **the computed residual** of the stage equations -/
theorem constructR_near (c : IConsts sc.ns n α M L Jb R W G u ε H) (hB : big G ≤ B) (hnt : NearTableau A sc sr) (hαa : ∀ i j, |sr.a i j| ≤ α)
    (hαc : ∀ i, |sr.cn i| ≤ α) (ht : isFin t = true) (hdt : isFin dt = true) (hH : A.val dt = H) (hy : ∀ k, isFin (y k) = true)
    (hTW : |A.val t| ≤ W) (hyR : ∀ k, |A.val (y k)| ≤ R) {r : ℝ} (hr : r ≤ 1) (hf : IRhs A f fn sc sr t dt y L M H ε r (3 * (u * big G ^ 2)))
    {Y : Vec F (sc.ns * n)} (hY : ∀ p, isFin (Y p) = true) (hYr : ∀ p, |A.val (Y p)| ≤ r) (p : Fin (sc.ns * n)) :
    Near A (constructR fn.fn sc t dt y Y p) (stageRes sc.ns sr.a sr.cn f (A.val t) H (A.vec y) (A.vec Y) p)
      ((sc.ns * n : ℝ) * (5 * (u * big G ^ 3) + H * α * (ε + 3 * L * (u * big G ^ 2))) + u * big G ^ 3) := by
  obtain ⟨hG1, b1, hub, hub2, hub3, g1, g2, g3, g4, g5, g6, g7, g8, g9⟩ := c.facts
  have hB0 : 0 ≤ B := by linarith
  have hu := c.hu
  have hα := c.hα
  have hR := c.hR
  have hW := c.hW
  have hM := c.hM
  have hL := c.hL
  have hε := c.hε
  have hη := c.hη
  have hH0 := c.hH
  have hH1 := c.hH1
  have hφ := c.hφ
  have hub20 : 0 ≤ u * big G ^ 2 := hub.trans hub2
  have hub30 : 0 ≤ u * big G ^ 3 := hub20.trans hub3
  have hbb : u * big G * big G = u * big G ^ 2 := by ring
  have hbbb : u * big G ^ 2 * big G = u * big G ^ 3 := by ring
  have hφ0 : 0 ≤ ε + 3 * L * (u * big G ^ 2) := by positivity
  have hsn : (0 : ℝ) ≤ sc.ns * n := by positivity
  have hsmall : u * big G ^ 3 ≤ 1 / 800 := by
    have : 0 ≤ (sc.ns * n : ℝ) * (5 * (u * big G ^ 3) + H * α * (ε + 3 * L * (u * big G ^ 2))) := by positivity
    linarith
  have hHabs : |A.val dt| = H := by rw [hH, abs_of_nonneg hH0]
  -- arguments
  have htime : ∀ j : Fin sc.ns, Near A (t + sc.cn j * dt) (A.val t + sr.cn j * H) (3 * (u * big G ^ 2)) := by
    intro j
    have c1 := coef_near (A := A) c (hnt.cn hB0 j) (hαc j)
    have c2 := near_mul hG1 hB hu c1 (Near.self hdt) (by linarith [hαc j]) (by rw [hHabs]; linarith) hub (by linarith) zero_le_one
    rw [mul_zero, hbb, hH] at c2
    have c3 : |sr.cn j * H| ≤ G := by
      rw [abs_mul, abs_of_nonneg hH0]
      exact (mul_le_mul (hαc j) hH1 hH0 (by linarith)).trans (by linarith)
    exact (near_add hG1 hB hu (Near.self ht) c2 (by linarith) c3 zero_le_one (by linarith)).mono (by linarith)
  have hval : ∀ (j : Fin sc.ns) (k : Fin n), Near A (y k + stageOf Y j k) (A.val (y k) + A.val (stageOf Y j k)) (3 * (u * big G ^ 2)) := by
    intro j k
    have h1 : |A.val (stageOf Y j k)| ≤ r := hYr _
    refine (near_add hG1 hB hu (Near.self (hy k)) (Near.self (hY (finProdFinEquiv (j, k)))) (by linarith [hyR k]) (by linarith [hYr (finProdFinEquiv (j, k))])
      zero_le_one zero_le_one).mono (by linarith)
  have hfun : ∀ q : Fin (sc.ns * n), Near A (stageFuns fn.fn sc t dt y Y q)
      (f (A.val t + sr.cn q.divNat * H) (fun k => A.val (y k) + A.val (stageOf Y q.divNat k)) q.modNat) (ε + 3 * L * (u * big G ^ 2)) := by
    intro q
    refine (hf.acc q.divNat (t + sc.cn q.divNat * dt) (fun k => y k + stageOf Y q.divNat k) (fun k => A.val (stageOf Y q.divNat k)) (htime _).1
      (fun k => (hval _ k).1) (fun k => hYr _) (htime _).2 (fun k => (hval _ k).2) q.modNat).mono (by linarith)
  have hkr : ∀ q : Fin (sc.ns * n), Near A (dt * kron sc.mat (eye n) p q) (H * (sr.a p.divNat q.divNat * if p.modNat = q.modNat then 1 else 0))
      (3 * (u * big G ^ 2)) ∧ |H * (sr.a p.divNat q.divNat * if p.modNat = q.modNat then 1 else 0)| ≤ H * α := by
    intro q
    have c1 := coef_near (A := A) c (hnt.a hB0 p.divNat q.divNat) (hαa _ _)
    have e1 : |(if p.modNat = q.modNat then (1 : ℝ) else 0)| ≤ 1 := by split_ifs <;> simp
    have e2 : |sr.a p.divNat q.divNat * if p.modNat = q.modNat then 1 else 0| ≤ α := by
      rw [abs_mul]
      calc _ ≤ α * 1 := mul_le_mul (hαa _ _) e1 (abs_nonneg _) (by linarith)
        _ = α := mul_one α
    have c2 := near_mul hG1 hB hu c1 (near_eye A p.modNat q.modNat) (by linarith [hαa p.divNat q.divNat]) (by linarith) hub (by linarith) zero_le_one
    rw [mul_zero, hbb] at c2
    have c3 := near_mul hG1 hB hu (Near.self hdt) c2 (by rw [hHabs]; linarith) (by linarith) le_rfl zero_le_one (by linarith)
    rw [hHabs, hH, zero_mul] at c3
    have e3 : H * (u * big G ^ 2 + 0 + u * big G) ≤ 1 * (u * big G ^ 2 + 0 + u * big G) := mul_le_mul_of_nonneg_right hH1 (by linarith)
    refine ⟨c3.mono (by linarith), ?_⟩
    rw [abs_mul, abs_of_nonneg hH0]
    exact mul_le_mul_of_nonneg_left e2 hH0
  have hHα : H * α ≤ α := mul_le_of_le_one_left (by linarith) hH1
  have hterm : ∀ q : Fin (sc.ns * n), Near A (dt * kron sc.mat (eye n) p q * stageFuns fn.fn sc t dt y Y q)
      (H * (sr.a p.divNat q.divNat * if p.modNat = q.modNat then 1 else 0) *
        f (A.val t + sr.cn q.divNat * H) (fun k => A.val (y k) + A.val (stageOf Y q.divNat k)) q.modNat)
      (4 * (u * big G ^ 3) + H * α * (ε + 3 * L * (u * big G ^ 2))) := by
    intro q
    obtain ⟨k1, k2⟩ := hkr q
    have e1 := hf.bd q.divNat (fun k => A.val (stageOf Y q.divNat k)) (fun k => hYr _) q.modNat
    have := near_mul hG1 hB hu k1 (hfun q) (by linarith) (by linarith) (by linarith) (by linarith) hφ
    rw [mul_assoc 3, hbbb] at this
    have e2 := mul_le_mul_of_nonneg_right k2 hφ0
    exact this.mono (by linarith)
  have hbound : ∀ q : Fin (sc.ns * n), |H * (sr.a p.divNat q.divNat * if p.modNat = q.modNat then 1 else 0) *
        f (A.val t + sr.cn q.divNat * H) (fun k => A.val (y k) + A.val (stageOf Y q.divNat k)) q.modNat| ≤ α * M := by
    intro q
    rw [abs_mul]
    exact mul_le_mul ((hkr q).2.trans hHα) (hf.bd q.divNat (fun k => A.val (stageOf Y q.divNat k)) (fun k => hYr _) q.modNat) (abs_nonneg _) (by linarith)
  have hcast : ((sc.ns * n : ℕ) : ℝ) = sc.ns * n := by push_cast; ring
  have hS0 : 0 ≤ H * α * (ε + 3 * L * (u * big G ^ 2)) := by positivity
  have e5 : (sc.ns * n : ℝ) * (4 * (u * big G ^ 3) + H * α * (ε + 3 * L * (u * big G ^ 2)) + u * big G) ≤
      (sc.ns * n : ℝ) * (5 * (u * big G ^ 3) + H * α * (ε + 3 * L * (u * big G ^ 2))) := mul_le_mul_of_nonneg_left (by linarith) hsn
  have hsum := near_sumFin (A := A) (Γ := α * M) hG1 hB hu hterm hbound (by linarith) (by positivity) g7 (by rw [hcast]; linarith)
  rw [hcast] at hsum
  have hreal : ∑ q : Fin (sc.ns * n), H * (sr.a p.divNat q.divNat * if p.modNat = q.modNat then 1 else 0) *
      f (A.val t + sr.cn q.divNat * H) (fun k => A.val (y k) + A.val (stageOf Y q.divNat k)) q.modNat =
      H * ∑ j : Fin sc.ns, sr.a p.divNat j * f (A.val t + sr.cn j * H) (fun k => A.vec y k + A.vec Y (finProdFinEquiv (j, k))) p.modNat := by
    rw [sum_stage, Finset.mul_sum]
    refine Finset.sum_congr rfl fun j _ => ?_
    simp only [divNat_stage, modNat_stage, mul_ite, mul_one, mul_zero, ite_mul, zero_mul, Finset.sum_ite_eq, Finset.mem_univ, if_true]
    rw [mul_assoc]
    rfl
  rw [hreal] at hsum
  have hval' : |H * ∑ j : Fin sc.ns, sr.a p.divNat j * f (A.val t + sr.cn j * H) (fun k => A.vec y k + A.vec Y (finProdFinEquiv (j, k))) p.modNat| ≤ G := by
    rw [← hreal]
    refine (Finset.abs_sum_le_sum_abs _ _).trans ((Finset.sum_le_sum fun q _ => hbound q).trans ?_)
    rw [Finset.sum_const, Finset.card_univ, Fintype.card_fin, nsmul_eq_mul]
    exact g7
  have := near_sub hG1 hB hu (Near.self (hY p)) (hsum.mono e5) (by linarith [hYr p]) hval' zero_le_one (by linarith)
  exact this.mono (by linarith)

/-- **the computed Newton matrix** -/
theorem stageJac_near (c : IConsts sc.ns n α M L Jb R W G u ε H) (hB : big G ≤ B) (hnt : NearTableau A sc sr) (hαa : ∀ i j, |sr.a i j| ≤ α)
    (hdt : isFin dt = true) (hH : A.val dt = H) {J : Mat F n} (hJ : ∀ i, (∀ l, isFin (J i l) = true) ∧ ∑ l, |A.val (J i l)| ≤ Jb) (p : Fin (sc.ns * n)) :
    (∀ q, isFin (stageJac sc dt J p q) = true) ∧
      ∑ q, |A.val (stageJac sc dt J p q) - if p = q then 1 else 0| ≤ H * (sc.ns * (α * Jb)) + (sc.ns * n : ℝ) * (4 * (u * big G ^ 2)) := by
  obtain ⟨hG1, b1, hub, hub2, hub3, g1, g2, g3, g4, g5, g6, g7, g8, g9⟩ := c.facts
  have hB0 : 0 ≤ B := by linarith
  have hu := c.hu
  have hα := c.hα
  have hR := c.hR
  have hW := c.hW
  have hL := c.hL
  have hε := c.hε
  have hη := c.hη
  have hH0 := c.hH
  have hH1 := c.hH1
  have hub20 : 0 ≤ u * big G ^ 2 := hub.trans hub2
  have hub30 : 0 ≤ u * big G ^ 3 := hub20.trans hub3
  have hbb : u * big G * big G = u * big G ^ 2 := by ring
  have hsmall : u * big G ^ 3 ≤ 1 / 800 := by
    have : 0 ≤ (sc.ns * n : ℝ) * (5 * (u * big G ^ 3) + H * α * (ε + 3 * L * (u * big G ^ 2))) := by positivity
    linarith
  have hHabs : |A.val dt| = H := by rw [hH, abs_of_nonneg hH0]
  have hJe : ∀ i l, |A.val (J i l)| ≤ Jb := fun i l =>
    (Finset.single_le_sum (f := fun l => |A.val (J i l)|) (fun _ _ => abs_nonneg _) (Finset.mem_univ l)).trans (hJ i).2
  have hkey : ∀ q, isFin (stageJac sc dt J p q) = true ∧
      |A.val (stageJac sc dt J p q) - if p = q then 1 else 0| ≤ H * (α * |A.val (J p.modNat q.modNat)|) + 4 * (u * big G ^ 2) := by
    intro q
    have c1 := coef_near (A := A) c (hnt.a hB0 p.divNat q.divNat) (hαa _ _)
    have hj := hJe p.modNat q.modNat
    have e2 : |sr.a p.divNat q.divNat * A.val (J p.modNat q.modNat)| ≤ α * |A.val (J p.modNat q.modNat)| := by
      rw [abs_mul]
      exact mul_le_mul_of_nonneg_right (hαa _ _) (abs_nonneg _)
    have e2' : α * |A.val (J p.modNat q.modNat)| ≤ α * Jb := mul_le_mul_of_nonneg_left hj (by linarith)
    have c2 := near_mul hG1 hB hu c1 (Near.self ((hJ p.modNat).1 q.modNat)) (by linarith [hαa p.divNat q.divNat]) (by linarith) hub (by linarith) zero_le_one
    rw [mul_zero, hbb] at c2
    have c3 := near_mul hG1 hB hu (Near.self hdt) c2 (by rw [hHabs]; linarith) (by linarith) le_rfl zero_le_one (by linarith)
    rw [hHabs, hH, zero_mul] at c3
    have e3 : H * (u * big G ^ 2 + 0 + u * big G) ≤ 1 * (u * big G ^ 2 + 0 + u * big G) := mul_le_mul_of_nonneg_right hH1 (by linarith)
    have e4 : |H * (sr.a p.divNat q.divNat * A.val (J p.modNat q.modNat))| ≤ H * (α * |A.val (J p.modNat q.modNat)|) := by
      rw [abs_mul, abs_of_nonneg hH0]
      exact mul_le_mul_of_nonneg_left e2 hH0
    have e5 : H * (α * |A.val (J p.modNat q.modNat)|) ≤ G :=
      (mul_le_of_le_one_left (mul_nonneg (by linarith) (abs_nonneg _)) hH1).trans (by linarith)
    have c4 : Near A (stageJac sc dt J p q) ((if p = q then 1 else 0) - H * (sr.a p.divNat q.divNat * A.val (J p.modNat q.modNat)))
        (0 + 3 * (u * big G ^ 2) + u * big G) := near_sub hG1 hB hu (near_eye A p q) (c3.mono (show _ ≤ 3 * (u * big G ^ 2) by linarith)) (by split_ifs <;> norm_num <;> linarith)
      (by linarith) zero_le_one (by linarith)
    refine ⟨c4.1, ?_⟩
    have e8 := abs_le.mp c4.2
    have e9 := abs_le.mp e4
    exact abs_le.mpr ⟨by linarith, by linarith⟩
  refine ⟨fun q => (hkey q).1, (Finset.sum_le_sum fun q _ => (hkey q).2).trans ?_⟩
  rw [Finset.sum_add_distrib, Finset.sum_const, Finset.card_univ, Fintype.card_fin, nsmul_eq_mul, ← Finset.mul_sum, sum_stage]
  have e : ∑ i : Fin sc.ns, ∑ k : Fin n, α * |A.val (J p.modNat (finProdFinEquiv (i, k)).modNat)| ≤ sc.ns * (α * Jb) := by
    have : ∀ i : Fin sc.ns, ∑ k : Fin n, α * |A.val (J p.modNat (finProdFinEquiv (i, k)).modNat)| ≤ α * Jb := by
      intro i
      simp only [modNat_stage, ← Finset.mul_sum]
      exact mul_le_mul_of_nonneg_left (hJ p.modNat).2 (by linarith)
    refine (Finset.sum_le_sum fun i _ => this i).trans ?_
    rw [Finset.sum_const, Finset.card_univ, Fintype.card_fin, nsmul_eq_mul]
  have := mul_le_mul_of_nonneg_left e hH0
  push_cast
  linarith

end

/-! ### the Newton iteration for the stages -/

/-- the size of the solution of a system near the identity -/
theorem solve_size {m : ℕ} {J : Fin m → Fin m → ℝ} {z r : Vec ℝ m} {ρ x : ℝ} (hρ : 0 ≤ ρ) (hx : 0 ≤ x) (hJ : ∀ i, ∑ l, |J i l - if i = l then 1 else 0| ≤ 1 / 4)
    (hz : ∀ i, |∑ l, J i l * z l + r i| ≤ ρ) (hr : ∀ i, |r i| ≤ x) : ‖z‖ ≤ 4 / 3 * (x + ρ) := by
  have h1 : ‖z‖ ≤ 1 / 4 * ‖z‖ + ρ + x := by
    rw [pi_norm_le_iff_of_nonneg (by positivity)]
    intro i
    have e1 : ∑ l, J i l * z l = z i + ∑ l, (J i l - if i = l then 1 else 0) * z l := by
      simp only [sub_mul, Finset.sum_sub_distrib, ite_mul, one_mul, zero_mul, Finset.sum_ite_eq, Finset.mem_univ, if_true]
      ring
    have e2 : |∑ l, (J i l - if i = l then 1 else 0) * z l| ≤ 1 / 4 * ‖z‖ := by
      refine (Finset.abs_sum_le_sum_abs _ _).trans ?_
      refine le_trans ?_ (mul_le_mul_of_nonneg_right (hJ i) (norm_nonneg z))
      rw [Finset.sum_mul]
      refine Finset.sum_le_sum fun l _ => ?_
      rw [abs_mul]
      exact mul_le_mul_of_nonneg_left (norm_le_pi_norm z l) (abs_nonneg _)
    have e3 := abs_le.mp (hz i)
    have e4 := abs_le.mp (hr i)
    have e5 := abs_le.mp e2
    rw [e1] at e3
    rw [Real.norm_eq_abs]
    exact abs_le.mpr ⟨by linarith, by linarith⟩
  linarith

/-- the residual after an update in terms of the increment -/
theorem inexact_increment {n : ℕ} {Fr : Vec ℝ n → Vec ℝ n} {J : Fin n → Fin n → ℝ} {X Z X' r : Vec ℝ n} {η ρ ζ q b : ℝ} (hη : 0 ≤ η) (hρ : 0 ≤ ρ)
    (hζ : 0 ≤ ζ) (hq0 : 0 ≤ q) (hb0 : 0 ≤ b) (hqb : q + b ≤ 3 / 8) (hr : ∀ i, |r i - Fr X i| ≤ η)
    (hz : ∀ i, |∑ l, J i l * Z l - r i| ≤ ρ) (hJ : ∀ i, ∑ l, |J i l - if i = l then 1 else 0| ≤ q) (hx : ∀ i, |X' i - (X i - Z i)| ≤ ζ)
    (hl : ‖Fr X' - Fr X - (X' - X)‖ ≤ b * ‖X' - X‖) : ‖Fr X'‖ ≤ (q + b) * ‖Z‖ + 2 * (η + ρ + ζ) := by
  have hZn : 0 ≤ ‖Z‖ := norm_nonneg Z
  have h1 : ‖Fr X - Z‖ ≤ q * ‖Z‖ + ρ + η := by
    rw [pi_norm_le_iff_of_nonneg (by positivity)]
    intro i
    have e1 : ∑ l, J i l * Z l = Z i + ∑ l, (J i l - if i = l then 1 else 0) * Z l := by
      simp only [sub_mul, Finset.sum_sub_distrib, ite_mul, one_mul, zero_mul, Finset.sum_ite_eq, Finset.mem_univ, if_true]
      ring
    have e2 : |∑ l, (J i l - if i = l then 1 else 0) * Z l| ≤ q * ‖Z‖ := by
      refine (Finset.abs_sum_le_sum_abs _ _).trans ?_
      refine le_trans ?_ (mul_le_mul_of_nonneg_right (hJ i) hZn)
      rw [Finset.sum_mul]
      refine Finset.sum_le_sum fun l _ => ?_
      rw [abs_mul]
      exact mul_le_mul_of_nonneg_left (norm_le_pi_norm Z l) (abs_nonneg _)
    have e3 := abs_le.mp (hz i)
    have e4 := abs_le.mp (hr i)
    have e5 := abs_le.mp e2
    rw [e1] at e3
    rw [Real.norm_eq_abs, Pi.sub_apply]
    exact abs_le.mpr ⟨by linarith, by linarith⟩
  have h3 : ‖X' - (X - Z)‖ ≤ ζ := by
    rw [pi_norm_le_iff_of_nonneg hζ]
    exact fun i => hx i
  have h4 : ‖X' - X‖ ≤ ‖Z‖ + ζ := by
    have e : X' - X = (X' - (X - Z)) - Z := by abel
    rw [e]
    exact (norm_sub_le _ _).trans (by linarith)
  have e : Fr X' = (Fr X' - Fr X - (X' - X)) + (X' - (X - Z)) + (Fr X - Z) := by abel
  have h5 : ‖Fr X'‖ ≤ b * (‖Z‖ + ζ) + ζ + (q * ‖Z‖ + ρ + η) := by
    rw [e]
    refine (norm_add_le _ _).trans (add_le_add ((norm_add_le _ _).trans (add_le_add (hl.trans ?_) h3)) h1)
    exact mul_le_mul_of_nonneg_left h4 hb0
  have h8 : b * ζ ≤ 3 / 8 * ζ := mul_le_mul_of_nonneg_right (by linarith) hζ
  linarith

/-- the stage equations are near the identity -/
theorem stageRes_lip {n s : ℕ} {a : ℕ → ℕ → ℝ} {c : ℕ → ℝ} {f : ℝ → Vec ℝ n → Vec ℝ n} {T H α L r : ℝ} {Y : Vec ℝ n} (hH : 0 ≤ H) (hα0 : 0 ≤ α) (hL : 0 ≤ L)
    (hα : ∀ i j, |a i j| ≤ α)
    (hl : ∀ (j : Fin s) (Z Z' : Vec ℝ n), (∀ k, |Z k| ≤ r) → (∀ k, |Z' k| ≤ r) →
      ‖f (T + c j * H) (fun k => Y k + Z k) - f (T + c j * H) (fun k => Y k + Z' k)‖ ≤ L * ‖Z - Z'‖)
    {Z Z' : Vec ℝ (s * n)} (hZ : ∀ p, |Z p| ≤ r) (hZ' : ∀ p, |Z' p| ≤ r) :
    ‖stageRes s a c f T H Y Z - stageRes s a c f T H Y Z' - (Z - Z')‖ ≤ H * (s * (α * L)) * ‖Z - Z'‖ := by
  rw [pi_norm_le_iff_of_nonneg (by positivity)]
  intro p
  have e : (stageRes s a c f T H Y Z - stageRes s a c f T H Y Z' - (Z - Z')) p = -(H * ∑ j : Fin s, a p.divNat j *
      (f (T + c j * H) (fun k => Y k + Z (finProdFinEquiv (j, k))) p.modNat - f (T + c j * H) (fun k => Y k + Z' (finProdFinEquiv (j, k))) p.modNat)) := by
    simp only [Pi.sub_apply, stageRes, mul_sub, Finset.sum_sub_distrib]
    ring
  rw [e, norm_neg, Real.norm_eq_abs, abs_mul, abs_of_nonneg hH]
  have hj : ∀ j : Fin s, |a p.divNat j * (f (T + c j * H) (fun k => Y k + Z (finProdFinEquiv (j, k))) p.modNat -
      f (T + c j * H) (fun k => Y k + Z' (finProdFinEquiv (j, k))) p.modNat)| ≤ α * (L * ‖Z - Z'‖) := by
    intro j
    rw [abs_mul]
    refine mul_le_mul (hα _ _) ?_ (abs_nonneg _) hα0
    have h1 := hl j (fun k => Z (finProdFinEquiv (j, k))) (fun k => Z' (finProdFinEquiv (j, k))) (fun k => hZ _) (fun k => hZ' _)
    have h2 := norm_le_pi_norm (f (T + c j * H) (fun k => Y k + Z (finProdFinEquiv (j, k))) - f (T + c j * H) (fun k => Y k + Z' (finProdFinEquiv (j, k)))) p.modNat
    rw [Real.norm_eq_abs, Pi.sub_apply] at h2
    refine h2.trans (h1.trans (mul_le_mul_of_nonneg_left ?_ hL))
    rw [pi_norm_le_iff_of_nonneg (norm_nonneg _)]
    intro k
    exact norm_le_pi_norm (Z - Z') (finProdFinEquiv (j, k))
  have h2 := (Finset.abs_sum_le_sum_abs _ _).trans (Finset.sum_le_sum fun j (_ : j ∈ (Finset.univ : Finset (Fin s))) => hj j)
  rw [Finset.sum_const, Finset.card_univ, Fintype.card_fin, nsmul_eq_mul] at h2
  calc _ ≤ H * (s * (α * (L * ‖Z - Z'‖))) := mul_le_mul_of_nonneg_left h2 hH
    _ = _ := by ring

section
variable {F : Type} [Add F] [Sub F] [Mul F] [Div F] [Neg F] [Scalar F] {n : ℕ} {u B : ℝ} {A : FloatArith F u B} {f : ℝ → Vec ℝ n → Vec ℝ n} {fn : OdeFun F n}
  {sc : SolverCoeffs F} {sr : SolverCoeffs ℝ} {α M L Jb R W G ε H : ℝ} {t dt : F} {y : Vec F n} {la : LinAlg F}

/-- **the stage values of a successful stage solve**: they are finite and small; their residual is of second order in the step and below the tolerances, up to
the errors of the arithmetic -/
theorem irk_float_newton (c : IConsts sc.ns n α M L Jb R W G u ε H) (hB : big G ≤ B) (hnt : NearTableau A sc sr) (hαa : ∀ i j, |sr.a i j| ≤ α)
    (hαc : ∀ i, |sr.cn i| ≤ α) (ht : isFin t = true) (hdt : isFin dt = true) (hH : A.val dt = H) (hy : ∀ k, isFin (y k) = true)
    (hTW : |A.val t| ≤ W) (hyR : ∀ k, |A.val (y k)| ≤ R) {r : ℝ} (hr : r ≤ 1) (hf : IRhs A f fn sc sr t dt y L M H ε r (3 * (u * big G ^ 2)))
    (hJ : ∀ i, (∀ l, isFin (fn.jac t y i l) = true) ∧ ∑ l, |A.val (fn.jac t y i l)| ≤ Jb) {ρ : ℝ} (hρ : 0 ≤ ρ) (hlu : LuAccurate A la (sc.ns * n) ρ)
    {η ζ q b a0 : ℝ} (hηd : η = (sc.ns * n : ℝ) * (5 * (u * big G ^ 3) + H * α * (ε + 3 * L * (u * big G ^ 2))) + u * big G ^ 3)
    (hζd : ζ = 2 * (u * big G)) (hqd : q = H * (sc.ns * (α * Jb)) + (sc.ns * n : ℝ) * (4 * (u * big G ^ 2))) (hbd : b = H * (sc.ns * (α * L)))
    (ha0 : a0 = H * (sc.ns * (α * M))) (hc1 : q ≤ 1 / 4) (hc2 : q + b ≤ 3 / 8) (hc3 : 6 * a0 + 16 * (η + ρ + ζ) ≤ r) {nd : Bool} {maxit refresh : ℤ}
    {xtol Rtol : F} {count : IrkCounters} {log : CallLog F n} {res : StageResult F (sc.ns * n) n} (hxf : isFin xtol = true) (hRf : isFin Rtol = true)
    (hx1 : |A.val xtol| ≤ 1) (hR1 : |A.val Rtol| ≤ 1)
    (hn : newtonSolveStages nd la fn sc t dt y maxit refresh xtol Rtol count log = .ret res) (hst : res.status = 0) :
    (∀ p, isFin (res.Y p) = true) ∧ ‖A.vec res.Y‖ ≤ 4 * a0 + 8 * (η + ρ + ζ) ∧
      ‖stageRes sc.ns sr.a sr.cn f (A.val t) H (A.vec y) (A.vec res.Y)‖ ≤ 4 / 3 * (q + b) * a0 + 4 * (η + ρ + ζ) ∧
      ‖stageRes sc.ns sr.a sr.cn f (A.val t) H (A.vec y) (A.vec res.Y)‖ ≤ |A.val Rtol| + (q + b) * |A.val xtol| +
        2 * Real.sqrt ((2 * (sc.ns * n) + 1) * (u * big G)) + 2 * (η + ρ + ζ) := by
  obtain ⟨hG1, b1, hub, hub2, hub3, g1, g2, g3, g4, g5, g6, g7, g8, g9⟩ := c.facts
  have hu := c.hu
  have hα := c.hα
  have hR := c.hR
  have hW := c.hW
  have hM := c.hM
  have hL := c.hL
  have hJb := c.hJ
  have hε := c.hε
  have hη := c.hη
  have hH0 := c.hH
  have hub20 : 0 ≤ u * big G ^ 2 := hub.trans hub2
  have hub30 : 0 ≤ u * big G ^ 3 := hub20.trans hub3
  have hcast : ((sc.ns * n : ℕ) : ℝ) = sc.ns * n := by push_cast; ring
  have hsn : (0 : ℝ) ≤ sc.ns * n := by positivity
  have hη0 : 0 ≤ η := by rw [hηd]; positivity
  have hζ0 : 0 ≤ ζ := by rw [hζd]; positivity
  have hq0 : 0 ≤ q := by rw [hqd]; positivity
  have hb0 : 0 ≤ b := by rw [hbd]; positivity
  have ha00 : 0 ≤ a0 := by rw [ha0]; positivity
  have hr0 : 0 ≤ r := by linarith
  have hm2 : ((sc.ns * n : ℕ) : ℝ) * (2 * (u * big G)) ≤ 1 := by
    have e1 : 0 ≤ (sc.ns * n : ℝ) * (H * α * (ε + 3 * L * (u * big G ^ 2))) := by positivity
    have e2 : (sc.ns * n : ℝ) * (2 * (u * big G)) ≤ (sc.ns * n : ℝ) * (5 * (u * big G ^ 3)) := mul_le_mul_of_nonneg_left (by linarith) hsn
    rw [hcast]
    linarith
  obtain ⟨-, m, Ys, dYs, S⟩ := stage_run hn
  have hstop : 0 < m ∧ Converged fn.fn sc t dt y xtol Rtol (Ys m) (dYs (m - 1)) := by
    rcases S.stop with ⟨-, s2, -, s4, -⟩ | ⟨s1, -⟩
    · exact ⟨s2, s4⟩
    · omega
  have hnd : stageLup nd la fn sc t dt y = la.lu (stageJac sc dt (fn.jac t y)) := by
    have hd := S.dir 0 hstop.1
    cases nd with
    | true => simp [stageLup, stageDir] at hd
    | false => simp [stageLup]
  -- the start
  have hz0 := nearA_zero A
  have hv0 : A.vec (Ys 0) = 0 := by
    rw [S.start]
    funext p
    have := hz0.2
    rw [sub_zero] at this
    exact abs_eq_zero.mp (le_antisymm this (abs_nonneg _))
  have hstart : ‖stageRes sc.ns sr.a sr.cn f (A.val t) H (A.vec y) (A.vec (Ys 0))‖ ≤ a0 := by
    rw [hv0, pi_norm_le_iff_of_nonneg ha00]
    intro p
    rw [Real.norm_eq_abs]
    unfold stageRes
    rw [Pi.zero_apply, zero_sub, abs_neg, abs_mul, abs_of_nonneg hH0, ha0]
    refine mul_le_mul_of_nonneg_left ?_ hH0
    have h1 : ∀ j : Fin sc.ns, |sr.a p.divNat j * f (A.val t + sr.cn j * H) (fun k => A.vec y k + (0 : Vec ℝ (sc.ns * n)) (finProdFinEquiv (j, k))) p.modNat| ≤ α * M := by
      intro j
      rw [abs_mul]
      exact mul_le_mul (hαa _ _) (hf.bd j (fun _ => 0) (fun _ => by rw [abs_zero]; exact hr0) p.modNat) (abs_nonneg _) (by linarith)
    have h2 := (Finset.abs_sum_le_sum_abs _ _).trans (Finset.sum_le_sum fun j (_ : j ∈ (Finset.univ : Finset (Fin sc.ns))) => h1 j)
    rw [Finset.sum_const, Finset.card_univ, Fintype.card_fin, nsmul_eq_mul] at h2
    exact h2
  have hcomp : ∀ {Z : Vec ℝ (sc.ns * n)} {x : ℝ}, ‖Z - A.vec (Ys 0)‖ ≤ x → ∀ p, |Z p| ≤ x := by
    intro Z x h p
    rw [hv0, sub_zero] at h
    exact (norm_le_pi_norm Z p).trans h
  have hlip : ∀ z w, ‖z - A.vec (Ys 0)‖ ≤ 6 * a0 + 16 * (η + ρ + ζ) → ‖w - A.vec (Ys 0)‖ ≤ 6 * a0 + 16 * (η + ρ + ζ) →
      ‖stageRes sc.ns sr.a sr.cn f (A.val t) H (A.vec y) z - stageRes sc.ns sr.a sr.cn f (A.val t) H (A.vec y) w - (z - w)‖ ≤ b * ‖z - w‖ := by
    intro z w hz hw
    rw [hbd]
    exact stageRes_lip hH0 (by linarith) hL hαa hf.lip (fun p => (hcomp hz p).trans hc3) (fun p => (hcomp hw p).trans hc3)
  have hmat := fun p => stageJac_near (A := A) c hB hnt hαa hdt hH hJ p
  rw [← hqd] at hmat
  -- one update
  have hone : ∀ k < m, (∀ p, isFin (Ys k p) = true) → ‖A.vec (Ys k) - A.vec (Ys 0)‖ ≤ 4 * a0 + 8 * (η + ρ + ζ) →
      ‖stageRes sc.ns sr.a sr.cn f (A.val t) H (A.vec y) (A.vec (Ys k))‖ ≤ a0 + 4 * (η + ρ + ζ) →
      (∀ p, isFin (dYs k p) = true) ∧ (∀ p, |A.val (dYs k p)| ≤ 1) ∧ (∀ p, isFin (Ys (k + 1) p) = true) ∧
      (∀ p, |A.val (constructR fn.fn sc t dt y (Ys k) p) - stageRes sc.ns sr.a sr.cn f (A.val t) H (A.vec y) (A.vec (Ys k)) p| ≤ η) ∧
      (∀ p, |∑ l, A.val (stageJac sc dt (fn.jac t y) p l) * (-A.vec (dYs k)) l - A.val (constructR fn.fn sc t dt y (Ys k) p)| ≤ ρ) ∧
      ∀ p, |A.vec (Ys (k + 1)) p - (A.vec (Ys k) p - (-A.vec (dYs k)) p)| ≤ ζ := by
    intro k hk hfin hdist hres
    have hYr : ∀ p, |A.val (Ys k p)| ≤ r := fun p => (hcomp hdist p).trans (by linarith)
    have hres' : ∀ p, Near A (constructR fn.fn sc t dt y (Ys k) p) (stageRes sc.ns sr.a sr.cn f (A.val t) H (A.vec y) (A.vec (Ys k)) p) η := by
      intro p
      rw [hηd]
      exact constructR_near c hB hnt hαa hαc ht hdt hH hy hTW hyR hr hf hfin hYr p
    have hRle : ∀ p, |A.val (constructR fn.fn sc t dt y (Ys k) p)| ≤ a0 + 5 * (η + ρ + ζ) := by
      intro p
      have h1 := norm_le_pi_norm (stageRes sc.ns sr.a sr.cn f (A.val t) H (A.vec y) (A.vec (Ys k))) p
      rw [Real.norm_eq_abs] at h1
      have := (hres' p).abs_le
      linarith
    have hdir := S.dir k hk
    rw [hnd] at hdir
    obtain ⟨z1, z2⟩ := hlu _ _ _ (fun p l => (hmat p).1 l) (fun p => (hmat p).2.trans hc1) (fun p => (hres' p).1) (fun p => (hRle p).trans (by linarith)) hdir
    have hzsz := solve_size (z := A.vec (dYs k)) hρ (by positivity) (fun p => (hmat p).2.trans hc1) z2 hRle
    have hz1 : ∀ p, |A.val (dYs k p)| ≤ 1 := fun p => (norm_le_pi_norm (A.vec (dYs k)) p).trans (hzsz.trans (by linarith))
    have hup : ∀ p, Near A (Ys (k + 1) p) (A.val (Ys k p) + A.val (dYs k p)) ζ := by
      intro p
      rw [S.upd k hk]
      have s1 := near_mul hG1 hB hu (nearA_one A) (Near.self (z1 p)) (by norm_num; linarith) (by linarith [hz1 p]) le_rfl zero_le_one zero_le_one
      rw [one_mul, zero_mul, mul_zero] at s1
      have s2 := near_add hG1 hB hu (Near.self (hfin p)) s1 (by linarith [hYr p]) (by linarith [hz1 p]) zero_le_one (by linarith)
      exact s2.mono (by rw [hζd]; linarith)
    refine ⟨z1, hz1, fun p => (hup p).1, fun p => (hres' p).2, fun p => ?_, fun p => ?_⟩
    · have e : ∑ l, A.val (stageJac sc dt (fn.jac t y) p l) * (-A.vec (dYs k)) l - A.val (constructR fn.fn sc t dt y (Ys k) p) =
          -(∑ l, A.val (stageJac sc dt (fn.jac t y) p l) * A.val (dYs k l) + A.val (constructR fn.fn sc t dt y (Ys k) p)) := by
        simp only [Pi.neg_apply, mul_neg, Finset.sum_neg_distrib, FloatArith.vec]
        ring
      rw [e, abs_neg]
      exact z2 p
    · have := (hup p).2
      rw [Pi.neg_apply, sub_neg_eq_add]
      exact this
  have hall := inexact_newton (Fr := stageRes sc.ns sr.a sr.cn f (A.val t) H (A.vec y)) (xs := fun k => A.vec (Ys k))
    (good := fun k => ∀ p, isFin (Ys k p) = true) (K := m) (a0 := a0) (η := η) (ρ := ρ) (ζ := ζ) (q := q) (b := b) hη0 hρ hζ0 hq0 hb0 hc1 hc2
    (by rw [S.start]; exact fun _ => hz0.1) hstart hlip
    (fun k hk hfin hdist hres => by
      obtain ⟨-, -, o3, o4, o5, o6⟩ := hone k hk hfin hdist hres
      exact ⟨o3, _, _, _, o4, o5, fun p => (hmat p).2, o6⟩)
  obtain ⟨f1, f2, f3, f4⟩ := hall m le_rfl
  rw [S.final]
  have hsize : ‖A.vec (Ys m)‖ ≤ 4 * a0 + 8 * (η + ρ + ζ) := by
    have := f2
    beta_reduce at this
    rwa [hv0, sub_zero] at this
  refine ⟨f1, hsize, f4 hstop.1, ?_⟩
  have hsq : 0 ≤ Real.sqrt ((2 * (sc.ns * n) + 1) * (u * big G)) := Real.sqrt_nonneg _
  have hqb : 0 ≤ (q + b) * |A.val xtol| := by positivity
  rcases hstop.2 with hR' | hx'
  · -- stopped by the residual
    have hYr : ∀ p, |A.val (Ys m p)| ≤ r := fun p => (norm_le_pi_norm (A.vec (Ys m)) p).trans (hsize.trans (by linarith))
    have hres' : ∀ p, Near A (constructR fn.fn sc t dt y (Ys m) p) (stageRes sc.ns sr.a sr.cn f (A.val t) H (A.vec y) (A.vec (Ys m)) p) η := by
      intro p
      rw [hηd]
      exact constructR_near c hB hnt hαa hαc ht hdt hH hy hTW hyR hr hf f1 hYr p
    have hRle : ∀ p, |A.val (constructR fn.fn sc t dt y (Ys m) p)| ≤ 1 := by
      intro p
      have h1 := norm_le_pi_norm (stageRes sc.ns sr.a sr.cn f (A.val t) H (A.vec y) (A.vec (Ys m))) p
      rw [Real.norm_eq_abs] at h1
      have := (hres' p).abs_le
      linarith
    rw [pi_norm_le_iff_of_nonneg (by positivity)]
    intro p
    have h1 := small_of_test (A := A) hG1 hB hu (fun p => (hres' p).1) hRle g8 hm2 hRf hR1 hR' p
    rw [hcast] at h1
    have h2 := abs_le.mp (hres' p).2
    have h3 := abs_le.mp h1
    rw [Real.norm_eq_abs]
    exact abs_le.mpr ⟨by linarith, by linarith⟩
  · -- stopped by the increment
    obtain ⟨m', rfl⟩ : ∃ m', m = m' + 1 := ⟨m - 1, by omega⟩
    obtain ⟨k1, k2, k3, -⟩ := hall m' (by omega)
    obtain ⟨o1, o2, o3, o4, o5, o6⟩ := hone m' (by omega) k1 k2 k3
    rw [show m' + 1 - 1 = m' by omega] at hx'
    have h1 := small_of_test (A := A) hG1 hB hu o1 o2 g8 hm2 hxf hx1 hx'
    rw [hcast] at h1
    have h2 : ‖-A.vec (dYs m')‖ ≤ |A.val xtol| + Real.sqrt ((2 * (sc.ns * n) + 1) * (u * big G)) := by
      rw [norm_neg, pi_norm_le_iff_of_nonneg (by positivity)]
      exact h1
    have h3 := inexact_increment (Fr := stageRes sc.ns sr.a sr.cn f (A.val t) H (A.vec y)) hη0 hρ hζ0 hq0 hb0 hc2 o4 o5 (fun p => (hmat p).2) o6
      (hlip _ _ (f2.trans (by linarith)) (k2.trans (by linarith)))
    have h4 := mul_le_mul_of_nonneg_left h2 (show 0 ≤ q + b by linarith)
    have h5 : (q + b) * Real.sqrt ((2 * (sc.ns * n) + 1) * (u * big G)) ≤ 3 / 8 * Real.sqrt ((2 * (sc.ns * n) + 1) * (u * big G)) :=
      mul_le_mul_of_nonneg_right hc2 hsq
    have h6 := abs_nonneg (A.val Rtol)
    linarith

end

end Verif
