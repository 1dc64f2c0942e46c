import Verif.ErkReal

/-!
# Facts about the shipped explicit tableaux and `erk::odeint`
-/

set_option linter.unusedSectionVars false

namespace Verif
namespace SolverCoeffs

theorem getD_map {F G : Type} (φ : F → G) (l : List F) (i : ℕ) (d : F) :
    (l.map φ).getD i (φ d) = φ (l.getD i d) := by
  simp [List.getD_eq_getElem?_getD, List.getElem?_map, Option.getD_map]

section
variable (sc : SolverCoeffs ℚ)

theorem ns_cast : (sc.map (fun x : ℚ => (x : ℝ))).ns = sc.ns := by simp [ns, map]
theorem a_cast (i j : ℕ) : (sc.map (fun x : ℚ => (x : ℝ))).a i j = ((sc.a i j : ℚ) : ℝ) := by
  unfold a
  have h1 : ((sc.map (fun x : ℚ => (x : ℝ))).A.getD i []) =
      (sc.A.getD i []).map (fun x : ℚ => (x : ℝ)) :=
    getD_map (List.map (fun x : ℚ => (x : ℝ))) sc.A i []
  rw [h1]
  exact getD_map (fun x : ℚ => (x : ℝ)) _ j 0 |>.symm ▸ by simp
theorem bw_cast (i : ℕ) : (sc.map (fun x : ℚ => (x : ℝ))).bw i = ((sc.bw i : ℚ) : ℝ) := by
  have := getD_map (fun x : ℚ => (x : ℝ)) sc.b i 0
  simpa [bw, map] using this
theorem bw2_cast (i : ℕ) : (sc.map (fun x : ℚ => (x : ℝ))).bw2 i = ((sc.bw2 i : ℚ) : ℝ) := by
  have := getD_map (fun x : ℚ => (x : ℝ)) sc.b2 i 0
  simpa [bw2, map] using this
theorem cn_cast (i : ℕ) : (sc.map (fun x : ℚ => (x : ℝ))).cn i = ((sc.cn i : ℚ) : ℝ) := by
  have := getD_map (fun x : ℚ => (x : ℝ)) sc.c i 0
  simpa [cn, map] using this
end
end SolverCoeffs

/-- decidable summary of what the integrator needs from a rational tableau -/
def tableauOK (sc : SolverCoeffs ℚ) : Bool :=
  decide (0 < sc.ns) &&
  (List.range sc.ns).all (fun i => (List.range sc.ns).all fun j => decide (i ≤ j → sc.a i j = 0)) &&
  (List.range sc.ns).all (fun i => decide (0 ≤ sc.cn i ∧ sc.cn i ≤ 1)) &&
  (!sc.fsal || (decide (2 ≤ sc.ns) && decide (sc.cn 0 = 0) && decide (sc.cn (sc.ns - 1) = 1) &&
    (List.range sc.ns).all fun j => decide (sc.a (sc.ns - 1) j = sc.bw j))) &&
  decide (sc.b2.length = 0 ∨ sc.b2.length = sc.ns)

theorem tableauOK_shipped : ∀ m ∈ erkImplemented, tableauOK (erkCoeffs m) = true := by
  decide +kernel

theorem shipped_facts {m : ℤ} (hm : m ∈ erkImplemented) :
    let sc : SolverCoeffs ℝ := erkCoeffs m
    Explicit sc ∧ (sc.fsal = true → FsalOK sc) ∧ 0 < sc.ns ∧
      (∀ i, i < sc.ns → 0 ≤ sc.cn i ∧ sc.cn i ≤ 1) ∧
      (sc.b2.length = 0 ∨ sc.b2.length = sc.ns) := by
  have h := tableauOK_shipped m hm
  intro sc
  have hsc : sc = (erkCoeffs m : SolverCoeffs ℚ).map (fun x : ℚ => (x : ℝ)) := erkCoeffs_cast m
  generalize (erkCoeffs m : SolverCoeffs ℚ) = sq at h hsc
  simp only [tableauOK, Bool.and_eq_true, decide_eq_true_eq, List.all_eq_true, List.mem_range,
    Bool.or_eq_true, Bool.not_eq_true'] at h
  obtain ⟨⟨⟨⟨h1, h2⟩, h3⟩, h4⟩, h5⟩ := h
  have hb2 : sc.b2.length = sq.b2.length := by rw [hsc]; simp [SolverCoeffs.map]
  have hns : sc.ns = sq.ns := by rw [hsc, SolverCoeffs.ns_cast]
  refine ⟨?_, ?_, by omega, ?_, by rw [hb2, hns]; exact h5⟩
  · intro i j hi hj hij
    rw [hns] at hi hj
    rw [hsc, SolverCoeffs.a_cast, h2 i hi j hj hij]; simp
  · intro hf
    have hf' : sq.fsal = true := by rw [hsc] at hf; exact hf
    rcases h4 with h4 | h4
    · rw [hf'] at h4; cases h4
    · obtain ⟨⟨⟨a1, a2⟩, a3⟩, a4⟩ := h4
      refine ⟨by omega, ?_, ?_, ?_⟩
      · rw [hsc, SolverCoeffs.cn_cast, a2]; simp
      · rw [hns, hsc, SolverCoeffs.cn_cast, a3]; simp
      · intro j hj
        rw [hns] at hj ⊢
        rw [hsc, SolverCoeffs.a_cast, SolverCoeffs.bw_cast, a4 j hj]
  · intro i hi
    rw [hns] at hi
    rw [hsc, SolverCoeffs.cn_cast]
    exact ⟨by exact_mod_cast (h3 i hi).1, by exact_mod_cast (h3 i hi).2⟩

section generic
variable {F : Type} [Add F] [Sub F] [Mul F] [Div F] [Neg F] [Scalar F] {n : ℕ}

/-- the options `odeint` passes on (adaptive stepping disabled if there is no embedded method) -/
def effOpts (o : ErkOpts F) (sc : SolverCoeffs F) : ErkOpts F :=
  if o.adaptive && sc.b2.length == 0 then { o with adaptive := false } else o

theorem effOpts_fields (o : ErkOpts F) (sc : SolverCoeffs F) :
    (effOpts o sc).absTol = o.absTol ∧ (effOpts o sc).relTol = o.relTol ∧
    (effOpts o sc).maxDt = o.maxDt ∧ (effOpts o sc).maxSteps = o.maxSteps := by
  unfold effOpts; split <;> simp

theorem effOpts_adaptive {o : ErkOpts F} {sc : SolverCoeffs F} :
    (effOpts o sc).adaptive = true ↔ o.adaptive = true ∧ sc.b2.length ≠ 0 := by
  unfold effOpts
  split
  next h => simp at h; simp [h]
  next h =>
    simp only [Bool.and_eq_true, beq_iff_eq, not_and] at h
    exact ⟨fun h' => ⟨h', h h'⟩, fun h' => h'.1⟩

theorem erkCoeffs_order_none {m : ℤ} (hm : m ∉ erkImplemented) :
    (erkCoeffs m : SolverCoeffs F).order = none ∧ (erkCoeffs m : SolverCoeffs F).b = [] := by
  simp only [erkImplemented, List.mem_cons, List.not_mem_nil, or_false, not_or] at hm
  obtain ⟨h1, h2, h3, h4, h5, h6⟩ := hm
  simp [erkCoeffs, h1, h2, h3, h4, h5, h6]

/-- A returning `odeint` ran `erk_guts` on an implemented method (with or without `NDEBUG`). -/
theorem erkOdeint_ret {nd : Bool} {f : F → Vec F n → Vec F n} {t0 t1 : F} {y0 : Vec F n}
    {o : ErkOpts F} {oo : OutOpts} {m : ℤ} {dt : F} {fuel : ℕ} {out : ErkOutput F n}
    (h : erkOdeint nd f t0 t1 y0 o oo m dt fuel = some (.ret out)) :
    m ∈ erkImplemented ∧
      erkGuts nd f t0 t1 y0 (effOpts o (erkCoeffs m)) dt (erkCoeffs m) oo fuel
        = some (.ret out) := by
  unfold erkOdeint at h
  simp only at h
  split_ifs at h with h1 h2
  · simp at h
  all_goals
    have key : m ∈ erkImplemented := by
      by_contra hm
      obtain ⟨ho, -⟩ := erkCoeffs_order_none (F := F) hm
      obtain ⟨mo, s, hmo, -⟩ := erkGuts_ret h
      simp [minOrder, ho] at hmo
    refine ⟨key, ?_⟩
  · rw [effOpts, if_pos h2]; exact h
  · rw [effOpts, if_neg h2]; exact h

end generic
end Verif
