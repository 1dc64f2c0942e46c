import Verif.Prop.ErkSens

/-!
# Property C139: superposition of explicit runs on linear systems
-/

set_option autoImplicit false

namespace Verif
open Spec

/-- one explicit step of a system that is linear in `y` is linear in the initial value -/
theorem rkStep_superpose {s n : ℕ} {A : Fin s → Fin s → ℝ} {b c : Fin s → ℝ} {f : ℝ → (Fin n → ℝ) → (Fin n → ℝ)} {t h α β : ℝ}
    {y z y' z' w' : Fin n → ℝ} {k l q : Fin s → Fin n → ℝ} (hA : ∀ i j, i ≤ j → A i j = 0) (hf : ∀ t y z, f t (α • y + β • z) = α • f t y + β • f t z)
    (hk : IsRKStep A b c f t h y y' k) (hl : IsRKStep A b c f t h z z' l) (hq : IsRKStep A b c f t h (α • y + β • z) w' q) : w' = α • y' + β • z' := by
  have hs : ∀ i, q i = α • k i + β • l i := by
    intro i
    induction i using WellFoundedLT.induction with
    | ind i ih =>
      have h1 : ∑ j, A i j • q j = α • ∑ j, A i j • k j + β • ∑ j, A i j • l j := by
        rw [Finset.smul_sum, Finset.smul_sum, ← Finset.sum_add_distrib]
        refine Finset.sum_congr rfl fun j _ => ?_
        by_cases hij : i ≤ j
        · simp [hA i j hij]
        · rw [ih j (not_le.mp hij), smul_add, smul_comm (A i j) α, smul_comm (A i j) β]
      rw [hq.1 i, hk.1 i, hl.1 i, h1, ← hf]
      congr 1
      simp only [smul_add, smul_comm h α, smul_comm h β]
      abel
  rw [hq.2, hk.2, hl.2]
  have h1 : ∑ i, b i • q i = α • ∑ i, b i • k i + β • ∑ i, b i • l i := by
    rw [Finset.smul_sum, Finset.smul_sum, ← Finset.sum_add_distrib]
    refine Finset.sum_congr rfl fun i _ => ?_
    rw [hs i, smul_add, smul_comm (b i) α, smul_comm (b i) β]
  rw [h1]
  simp only [smul_add, smul_comm h α, smul_comm h β]
  abel

section
variable {n : ℕ} {nd : Bool} {f : ℝ → Vec ℝ n → Vec ℝ n} {t0 t1 : ℝ} {y0 z0 : Vec ℝ n} {m : ℤ} {α β : ℝ}

/-- **C139.**  Three returned runs of the same method on a system that is linear in `y` (the matrix may depend on the time), from `y0`, from `z0` and from
`α y0 + β z0`, with whatever options.  If they record the same times, the values of the third are the same combination of the values of the first two. -/
theorem C139_runs {o o' o'' : ErkOpts ℝ} {oo oo' oo'' : OutOpts} {dt dt' dt'' : ℝ} {fuel fuel' fuel'' : ℕ} {out out' out'' : ErkOutput ℝ n}
    (hf : ∀ t y z, f t (α • y + β • z) = α • f t y + β • f t z)
    (h : erkOdeint nd f t0 t1 y0 o oo m dt fuel = some (.ret out)) (hp : nd = false ∨ (0 < dt ∧ t0 < t1))
    (h' : erkOdeint nd f t0 t1 z0 o' oo' m dt' fuel' = some (.ret out')) (hp' : nd = false ∨ (0 < dt' ∧ t0 < t1))
    (h'' : erkOdeint nd f t0 t1 (α • y0 + β • z0) o'' oo'' m dt'' fuel'' = some (.ret out'')) (hp'' : nd = false ∨ (0 < dt'' ∧ t0 < t1))
    (ht' : out'.tVals = out.tVals) (ht'' : out''.tVals = out.tVals) (i : ℕ) {y z : Vec ℝ n} (hy : out.yVals[i]? = some y) (hz : out'.yVals[i]? = some z) :
    out''.yVals[i]? = some (α • y + β • z) := by
  have hlen := (C10_odeint h).1
  have hex := (shipped_facts (erkOdeint_ret h).1).1
  induction i generalizing y z with
  | zero =>
    have e1 := (C10_odeint h).2.2.2.2.2
    have e2 := (C10_odeint h').2.2.2.2.2
    have e3 := (C10_odeint h'').2.2.2.2.2
    rw [List.head?_eq_getElem?] at e1 e2 e3
    rw [hy] at e1
    rw [hz] at e2
    cases e1; cases e2
    exact e3
  | succ i ih =>
    obtain ⟨hi, -⟩ := List.getElem?_eq_some_iff.mp hy
    have ht : out.tVals[i]? = some (out.tVals[i]'(by omega)) := List.getElem?_eq_getElem _
    have hs : out.tVals[i + 1]? = some (out.tVals[i + 1]'(by omega)) := List.getElem?_eq_getElem _
    generalize out.tVals[i]'(by omega) = t at ht
    generalize out.tVals[i + 1]'(by omega) = s at hs
    obtain ⟨a, a', k, a1, a2, -, a4⟩ := C12_odeint h hp ht hs
    obtain ⟨b, b', l, b1, b2, -, b4⟩ := C12_odeint h' hp' (by rw [ht']; exact ht) (by rw [ht']; exact hs)
    obtain ⟨c, c', q, c1, c2, -, c4⟩ := C12_odeint h'' hp'' (by rw [ht'']; exact ht) (by rw [ht'']; exact hs)
    rw [hy] at a2
    rw [hz] at b2
    rw [ih a1 b1] at c1
    cases a2; cases b2; cases c1
    rw [c2, rkStep_superpose (fun i j hij => hex i j i.2 j.2 hij) hf a4 b4 c4]

/-- **C139, whole runs.**  With fixed steps the three runs return with SUCCESS and record the same times. -/
theorem C139_fixed {o : ErkOpts ℝ} {oo : OutOpts} {dt : ℝ} (hm : m ∈ erkImplemented) (hs : StreamOK oo)
    (had : o.adaptive = false ∨ (erkCoeffs m : SolverCoeffs ℝ).b2 = []) (hms : o.maxSteps < 0) (hdt : 0 < dt) (h01 : t0 < t1)
    (hf : ∀ t y z, f t (α • y + β • z) = α • f t y + β • f t z) :
    ∃ fuel fuel' fuel'' out out' out'', erkOdeint nd f t0 t1 y0 o oo m dt fuel = some (.ret out) ∧ erkOdeint nd f t0 t1 z0 o oo m dt fuel' = some (.ret out') ∧
      erkOdeint nd f t0 t1 (α • y0 + β • z0) o oo m dt fuel'' = some (.ret out'') ∧ out.status = 0 ∧ out'.status = 0 ∧ out''.status = 0 ∧
      out'.tVals = out.tVals ∧ out''.tVals = out.tVals ∧
      ∀ (i : ℕ) (y z : Vec ℝ n), out.yVals[i]? = some y → out'.yVals[i]? = some z → out''.yVals[i]? = some (α • y + β • z) := by
  obtain ⟨fuel, out, a1, a2, a3⟩ := C19_fixed_grid (nd := nd) (f := f) (y0 := y0) hm hs had hdt h01 (Or.inl hms)
  obtain ⟨fuel', out', b1, b2, b3⟩ := C19_fixed_grid (nd := nd) (f := f) (y0 := z0) hm hs had hdt h01 (Or.inl hms)
  obtain ⟨fuel'', out'', c1, c2, c3⟩ := C19_fixed_grid (nd := nd) (f := f) (y0 := α • y0 + β • z0) hm hs had hdt h01 (Or.inl hms)
  have hp : nd = false ∨ (0 < dt ∧ t0 < t1) := Or.inr ⟨hdt, h01⟩
  exact ⟨fuel, fuel', fuel'', out, out', out'', a1, b1, c1, a2, b2, c2, by rw [a3, b3], by rw [a3, c3],
    fun i y z hy hz => C139_runs hf a1 hp b1 hp c1 hp (by rw [a3, b3]) (by rw [a3, c3]) i hy hz⟩

end

/-- RK4 on the oscillator with a frequency that grows with the time -/
example : ∃ fuel fuel' fuel'' out out' out'', erkOdeint (F := ℝ) (n := 2) true (fun t y => ![y 1, - t * y 0]) 0 1 ![1, 0]
      { adaptive := false, relTol := 1, absTol := 1, maxDt := 0, maxSteps := -1 } OutOpts.dflt 110 (3 / 10) fuel = some (.ret out) ∧
    erkOdeint (F := ℝ) (n := 2) true (fun t y => ![y 1, - t * y 0]) 0 1 ![0, 1]
      { adaptive := false, relTol := 1, absTol := 1, maxDt := 0, maxSteps := -1 } OutOpts.dflt 110 (3 / 10) fuel' = some (.ret out') ∧
    erkOdeint (F := ℝ) (n := 2) true (fun t y => ![y 1, - t * y 0]) 0 1 ((2 : ℝ) • ![1, 0] + (3 : ℝ) • ![0, 1])
      { adaptive := false, relTol := 1, absTol := 1, maxDt := 0, maxSteps := -1 } OutOpts.dflt 110 (3 / 10) fuel'' = some (.ret out'') ∧
    ∀ (i : ℕ) (y z : Vec ℝ 2), out.yVals[i]? = some y → out'.yVals[i]? = some z → out''.yVals[i]? = some ((2 : ℝ) • y + (3 : ℝ) • z) := by
  obtain ⟨f1, f2, f3, o1, o2, o3, a1, a2, a3, -, -, -, -, -, a9⟩ := C139_fixed (n := 2) (nd := true) (f := fun t y => ![y 1, - t * y 0]) (t0 := 0) (t1 := 1)
    (y0 := ![1, 0]) (z0 := ![0, 1]) (m := 110) (α := 2) (β := 3) (dt := 3 / 10)
    (o := { adaptive := false, relTol := 1, absTol := 1, maxDt := 0, maxSteps := -1 }) (oo := OutOpts.dflt) (by decide)
    (fun h => by revert h; decide) (Or.inl rfl) (by norm_num) (by norm_num) one_pos
    (fun t y z => by funext i; fin_cases i <;> simp; ring)
  exact ⟨f1, f2, f3, o1, o2, o3, a1, a2, a3, a9⟩

end Verif
