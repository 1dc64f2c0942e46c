import Verif.StabilityRat
import Verif.Prop.Stability
import Verif.StabilityErk

/-!
# Properties C65, C66: the stability-region program
-/

set_option linter.unusedSectionVars false

namespace Verif

instance : LawfulMonad Outcome := LawfulMonad.mk'
  (id_map := fun x => by cases x <;> rfl)
  (pure_bind := fun _ _ => rfl)
  (bind_assoc := fun x _ _ => by cases x <;> rfl)

theorem mapM_all {α β : Type} {f : α → Outcome β} {g : α → β} {l : List α} (h : ∀ x ∈ l, f x = .ret (g x)) :
    l.mapM f = .ret (l.map g) := by
  induction l with
  | nil => rfl
  | cons a l ih =>
    rw [List.mapM_cons, h a (by simp), ih fun x hx => h x (by simp [hx])]
    rfl

theorem mapM_ret {α β : Type} {f : α → Outcome β} {l : List α} {r : List β} (h : l.mapM f = .ret r) :
    r.length = l.length ∧ ∀ (i : ℕ) x, l[i]? = some x → ∃ y, r[i]? = some y ∧ f x = .ret y := by
  induction l generalizing r with
  | nil => cases h; simp
  | cons a l ih =>
    rw [List.mapM_cons] at h
    cases ha : f a with
    | ret y =>
      rw [ha] at h
      cases hl : l.mapM f with
      | ret ys =>
        rw [hl] at h
        cases h
        obtain ⟨h1, h2⟩ := ih hl
        refine ⟨by simp [h1], fun i x hx => ?_⟩
        cases i with
        | zero => simp only [List.getElem?_cons_zero, Option.some.injEq] at hx; subst hx; exact ⟨y, rfl, ha⟩
        | succ i => exact h2 i x hx
      | assertFail => rw [hl] at h; cases h
      | throws => rw [hl] at h; cases h
      | ub => rw [hl] at h; cases h
    | assertFail => rw [ha] at h; cases h
    | throws => rw [ha] at h; cases h
    | ub => rw [ha] at h; cases h

theorem mapM_throws {α β : Type} {f : α → Outcome β} {a : α} {l : List α} (h : f a = .throws) :
    (a :: l).mapM f = .throws := by
  rw [List.mapM_cons, h]; rfl

/-- no coefficients: the value is 1 -/
theorem stab_empty (z : ℂ) : stabilityFunction z [] [] = .ret 1 := by
  unfold stabilityFunction
  simp

theorem region_empty (X Y : List ℝ) (sc : SolverCoeffs ℝ) (hA : sc.A = []) (hb : sc.b = []) (hb2 : sc.b2 = []) (e : Bool) :
    rkToStabRegion X Y sc e = .ret (X.map fun _ => Y.map fun _ => 1) := by
  unfold rkToStabRegion
  refine mapM_all fun x _ => mapM_all fun y _ => ?_
  have : (if e = true then stabilityFunction ⟨x, y⟩ sc.A sc.b2 else stabilityFunction ⟨x, y⟩ sc.A sc.b) = .ret 1 := by
    rw [hA, hb, hb2, stab_empty]; simp
  rw [this]
  simp [Outcome.bind]

theorem linspace_length (a b : ℝ) (k : ℕ) : (linspace a b k).length = k := by simp [linspace]

/-- the amplification factor of the method that a name stands for -/
def IsFactor (name : String) (z : ℂ) (v : ℝ) : Prop :=
  ∃ sc : SolverCoeffs ℝ, (∃ m, ((name, m) ∈ irkMethods ∧ sc = irkCoeffs m) ∨ ((name, m) ∈ erkMethods ∧ sc = erkCoeffs m)) ∧
    ∃ R, stabilityFunction z sc.A sc.b = .ret R ∧ v = ‖R‖

/-- **C65, the documented claim**: for every method the lines written for the stability region contain the modulus of
the stability function of that method. -/
def C65_claim : Prop := ∀ (name : String) (m : ℤ), ((name, m) ∈ irkMethods ∧ m ∈ irkImplemented) ∨ (name, m) ∈ erkMethods →
  ∀ lines, stabilityRegion name false = .ret lines → ∀ p ∈ lines, IsFactor name ⟨p.1, p.2.1⟩ p.2.2

theorem irkNamed_irk : ∀ p ∈ irkMethods, irkNamed p.1 = p.2 ∧ erkNamed p.1 = 0 ∧ p.2 ≠ 0 := by decide
theorem erkNamed_erk : ∀ p ∈ erkMethods, irkNamed p.1 = 0 ∧ erkNamed p.1 = p.2 ∧ p.2 ≠ 0 := by decide

/-- lines of a region with a known matrix -/
theorem region_lines {name : String} {e : Bool} {lines : List (ℝ × ℝ × ℝ)} (h : stabilityRegion name e = .ret lines) :
    ∃ S, regionMatrix (linspace (-190) 10 400) (linspace (-20) 20 80) name e = .ret (some S) ∧
      ∀ p ∈ lines, ∃ i j, (linspace (-190) 10 400)[i]? = some p.1 ∧ (linspace (-20) 20 80)[j]? = some p.2.1 ∧
        p.2.2 = (S.getD i []).getD j 0 := by
  unfold stabilityRegion at h
  simp only at h
  cases hS : regionMatrix (linspace (-190) 10 400) (linspace (-20) 20 80) name e with
  | ret S =>
    rw [hS] at h
    cases S with
    | none => cases h
    | some S =>
      refine ⟨S, rfl, ?_⟩
      simp only [Outcome.ret_bind, Outcome.pure_eq, Outcome.ret.injEq, linspace_length] at h
      subst h
      intro p hp
      simp only [List.mem_flatMap, List.mem_map, List.mem_range] at hp
      obtain ⟨j, hj, i, hi, rfl⟩ := hp
      refine ⟨i, j, ?_, ?_, rfl⟩
      · have hi' : i < (linspace (-190) 10 400).length := by rw [linspace_length]; exact hi
        rw [List.getElem?_eq_getElem hi', List.getD_eq_getElem _ _ hi']
      · have hj' : j < (linspace (-20) 20 80).length := by rw [linspace_length]; exact hj
        rw [List.getElem?_eq_getElem hj', List.getD_eq_getElem _ _ hj']
  | assertFail => rw [hS] at h; cases h
  | throws => rw [hS] at h; cases h
  | ub => rw [hS] at h; cases h

/-- **C65 (implicit methods).**  The claim holds for the names of implicit methods.  Missing: the explicit methods, see
`C65_explicit`. -/
theorem C65_implicit_partial {name : String} {m : ℤ} (hm : (name, m) ∈ irkMethods) {lines : List (ℝ × ℝ × ℝ)}
    (h : stabilityRegion name false = .ret lines) : ∀ p ∈ lines, IsFactor name ⟨p.1, p.2.1⟩ p.2.2 := by
  obtain ⟨S, hS, hl⟩ := region_lines h
  obtain ⟨e1, e2, e3⟩ := irkNamed_irk _ hm
  simp only at e1 e2 e3
  unfold regionMatrix at hS
  simp only [e1, e2] at hS
  rw [if_pos e3] at hS
  cases hR : rkToStabRegion (linspace (-190) 10 400) (linspace (-20) 20 80) (irkCoeffs m) false with
  | ret S' =>
    rw [hR] at hS
    have : S' = S := by
      have : (Outcome.ret (some S') : Outcome (Option (List (List ℝ)))) = .ret (some S) := by simpa using hS
      cases this; rfl
    subst this
    intro p hp
    obtain ⟨i, j, hi, hj, hv⟩ := hl p hp
    obtain ⟨row, r1, r2⟩ := (mapM_ret hR).2 i p.1 hi
    obtain ⟨v, v1, v2⟩ := (mapM_ret r2).2 j p.2.1 hj
    have hv' : p.2.2 = v := by
      rw [hv, List.getD_eq_getElem?_getD, List.getD_eq_getElem?_getD, r1, Option.getD_some, v1, Option.getD_some]
    refine ⟨irkCoeffs m, ⟨m, Or.inl ⟨hm, rfl⟩⟩, ?_⟩
    simp only [Bool.false_eq_true, if_false] at v2
    cases hf : stabilityFunction ⟨p.1, p.2.1⟩ (irkCoeffs m : SolverCoeffs ℝ).A (irkCoeffs m : SolverCoeffs ℝ).b with
    | ret R =>
      rw [hf] at v2
      simp only [Outcome.bind, Outcome.ret.injEq] at v2
      exact ⟨R, rfl, by rw [hv', v2]⟩
    | assertFail => rw [hf] at v2; cases v2
    | throws => rw [hf] at v2; cases v2
    | ub => rw [hf] at v2; cases v2
  | assertFail => rw [hR] at hS; cases hS
  | throws => rw [hR] at hS; cases hS
  | ub => rw [hR] at hS; cases hS

/-- rows of equal length one after the other -/
theorem getElem?_rows {α : Type} (g : ℕ → ℕ → α) (a b : ℕ) :
    ((List.range a).flatMap fun j => (List.range b).map (g j)).length = a * b ∧
    ∀ j i, j < a → i < b → ((List.range a).flatMap fun j => (List.range b).map (g j))[j * b + i]? = some (g j i) := by
  induction a with
  | zero => simp
  | succ a ih =>
    rw [List.range_succ, List.flatMap_append]
    refine ⟨by rw [List.length_append, ih.1]; simp [Nat.succ_mul], fun j i hj hi => ?_⟩
    rcases Nat.lt_succ_iff_lt_or_eq.mp hj with hj | rfl
    · rw [List.getElem?_append_left, ih.2 j i hj hi]
      rw [ih.1]
      calc j * b + i < j * b + b := by omega
        _ = (j + 1) * b := by ring
        _ ≤ a * b := Nat.mul_le_mul_right _ hj
    · rw [List.getElem?_append_right (by rw [ih.1]; omega), ih.1, Nat.add_sub_cancel_left]
      simp [hi]

/-- **C65 (grid).**  Whatever region is written, it has one line for each point of the grid of 400 by 80 points that
covers the rectangle from `-190 - 20 i` to `10 + 20 i`, both ends included, row by row. -/
theorem C65_grid {name : String} {e : Bool} {lines : List (ℝ × ℝ × ℝ)} (h : stabilityRegion name e = .ret lines) :
    lines.length = 80 * 400 ∧
    ∀ j i : ℕ, j < 80 → i < 400 → ∃ v, lines[j * 400 + i]? = some (-190 + 200 * ((i : ℝ) / 399), -20 + 40 * ((j : ℝ) / 79), v) := by
  unfold stabilityRegion at h
  simp only at h
  cases hS : regionMatrix (linspace (-190) 10 400) (linspace (-20) 20 80) name e with
  | ret S =>
    rw [hS] at h
    cases S with
    | none => cases h
    | some S =>
      simp only [Outcome.ret_bind, Outcome.pure_eq, Outcome.ret.injEq, linspace_length] at h
      subst h
      obtain ⟨h1, h2⟩ := getElem?_rows (fun j i => ((linspace (-190) 10 400).getD i 0, (linspace (-20) 20 80).getD j 0,
        (S.getD i []).getD j 0)) 80 400
      refine ⟨h1, fun j i hj hi => ⟨_, (h2 j i hj hi).trans (congrArg some (Prod.ext ?_ (Prod.ext ?_ rfl)))⟩⟩
      · simp only [linspace, List.getD_eq_getElem?_getD, List.getElem?_map, List.getElem?_range hi, Option.map_some,
          Option.getD_some]
        push_cast
        ring
      · simp only [linspace, List.getD_eq_getElem?_getD, List.getElem?_map, List.getElem?_range hj, Option.map_some,
          Option.getD_some]
        push_cast
        ring
  | assertFail => rw [hS] at h; cases h
  | throws => rw [hS] at h; cases h
  | ub => rw [hS] at h; cases h

/-- **C65 (explicit methods).**  For every explicit method the program writes the value 1 on every line, since it asks
the implicit module for the coefficients. -/
theorem C65_explicit {name : String} {m : ℤ} (hm : (name, m) ∈ erkMethods) (e : Bool) :
    ∃ lines, stabilityRegion name e = .ret lines ∧ lines.length = 32000 ∧ ∀ p ∈ lines, p.2.2 = 1 := by
  obtain ⟨e1, e2, e3⟩ := erkNamed_erk _ hm
  simp only at e1 e2 e3
  have hc : (irkCoeffs m : SolverCoeffs ℝ).A = [] ∧ (irkCoeffs m : SolverCoeffs ℝ).b = [] ∧
      (irkCoeffs m : SolverCoeffs ℝ).b2 = [] := by
    simp only [erkMethods, List.mem_cons, Prod.mk.injEq, List.not_mem_nil, or_false] at hm
    rcases hm with ⟨-, rfl⟩ | ⟨-, rfl⟩ | ⟨-, rfl⟩ | ⟨-, rfl⟩ | ⟨-, rfl⟩ | ⟨-, rfl⟩ <;> exact ⟨rfl, rfl, rfl⟩
  have hS : ∀ X Y, regionMatrix X Y name e = .ret (some (X.map fun _ => Y.map fun _ => 1)) := by
    intro X Y
    unfold regionMatrix
    simp only [e1, e2, ne_eq, not_true_eq_false, if_false, Outcome.pure_eq, Outcome.ret_bind]
    rw [if_pos e3, region_empty _ _ _ hc.1 hc.2.1 hc.2.2]
    rfl
  unfold stabilityRegion
  simp only [hS, Outcome.ret_bind, linspace_length, Outcome.pure_eq]
  refine ⟨_, rfl, ?_, ?_⟩
  · simp [List.length_flatMap]
  · intro p hp
    simp only [List.mem_flatMap, List.mem_map, List.mem_range] at hp
    obtain ⟨j, hj, i, hi, rfl⟩ := hp
    simp only [List.getD_eq_getElem?_getD, List.getElem?_map]
    have hi' : (linspace (-190) 10 400)[i]? = some _ := List.getElem?_eq_getElem (by rw [linspace_length]; exact hi)
    have hj' : (linspace (-20) 20 80)[j]? = some _ := List.getElem?_eq_getElem (by rw [linspace_length]; exact hj)
    rw [hi', Option.map_some, Option.getD_some, List.getElem?_map, hj', Option.map_some, Option.getD_some]

/-- `C65_grid`: the region of an explicit method ends at `10 + 20 i` -/
example : ∃ lines v, stabilityRegion "RUNGE_KUTTA_4" false = .ret lines ∧ lines[79 * 400 + 399]? = some (10, 20, v) := by
  obtain ⟨lines, h1, -⟩ := C65_explicit (name := "RUNGE_KUTTA_4") (m := 110) (by decide) false
  obtain ⟨v, hv⟩ := (C65_grid h1).2 79 399 (by norm_num) (by norm_num)
  exact ⟨lines, v, h1, hv.trans (congrArg some (Prod.ext (by norm_num) (Prod.ext (by norm_num) rfl)))⟩

theorem linspace_head (a b : ℝ) (k : ℕ) : (linspace a b (k + 1)).getD 0 0 = a := by
  simp [linspace]

/-- **C65 is refuted**: for EXPLICIT_EULER the line at `x = -190`, `y = -20` holds 1 instead of `|1 + z|`. -/
theorem C65_refuted : ¬ C65_claim := by
  intro h
  have hm : (("EXPLICIT_EULER", 100) : String × ℤ) ∈ erkMethods := by decide
  obtain ⟨lines, h1, h2, h3⟩ := C65_explicit hm false
  -- the first line
  have hp : ∃ v, ((-190 : ℝ), (-20 : ℝ), v) ∈ lines := by
    unfold stabilityRegion at h1
    simp only at h1
    cases hS : regionMatrix (linspace (-190) 10 400) (linspace (-20) 20 80) "EXPLICIT_EULER" false with
    | ret S =>
      rw [hS] at h1
      cases S with
      | none => cases h1
      | some S =>
        simp only [Outcome.ret_bind, Outcome.pure_eq, Outcome.ret.injEq, linspace_length] at h1
        subst h1
        refine ⟨(S.getD 0 []).getD 0 0, ?_⟩
        simp only [List.mem_flatMap, List.mem_map, List.mem_range]
        refine ⟨0, by norm_num, 0, by norm_num, ?_⟩
        rw [linspace_head, linspace_head]
    | assertFail => rw [hS] at h1; cases h1
    | throws => rw [hS] at h1; cases h1
    | ub => rw [hS] at h1; cases h1
  obtain ⟨v, hv⟩ := hp
  have hv1 := h3 _ hv
  simp only at hv1
  obtain ⟨sc, ⟨m, hm'⟩, R, hR, e⟩ := h "EXPLICIT_EULER" 100 (Or.inr hm) lines h1 _ hv
  have hsc : sc = erkCoeffs 100 := by
    rcases hm' with ⟨a, -⟩ | ⟨a, b⟩
    · exact absurd ((irkNamed_irk _ a).2.2) (by
        have := (irkNamed_irk _ a).1
        have h0 : irkNamed "EXPLICIT_EULER" = 0 := by decide
        simp only at this ⊢
        rw [← this, h0]; simp)
    · have := (erkNamed_erk _ a).2.1
      have h0 : erkNamed "EXPLICIT_EULER" = 100 := by decide
      simp only at this
      rw [h0] at this
      rw [b, ← this]
  subst hsc
  rw [stab_erk (by decide)] at hR
  simp only [erkStab, if_true, List.map, horner, Outcome.ret.injEq] at hR
  subst hR
  simp only [hv1] at e
  have h2 : (1 : ℝ) = ‖(⟨-189, -20⟩ : ℂ)‖ := by
    rw [e]; congr 1
    apply Complex.ext <;> simp
    norm_num
  have h3 : (189 : ℝ) ≤ ‖(⟨-189, -20⟩ : ℂ)‖ := by
    refine le_trans ?_ (Complex.abs_re_le_norm _)
    simp
  rw [← h2] at h3
  norm_num at h3

/-- Explicit methods are not A-stable: at `z = -6` each of them amplifies (so C60 is a property of the methods named
there, not of every method). -/
theorem C60_not_explicit {m : ℤ} (hm : m ∈ erkImplemented) :
    ∃ z : ℂ, z.re ≤ 0 ∧ ∃ R, stabilityFunction z (erkCoeffs m : SolverCoeffs ℝ).A (erkCoeffs m : SolverCoeffs ℝ).b =
      .ret R ∧ 1 < ‖R‖ := by
  refine ⟨-6, by simp, _, stab_erk hm _, ?_⟩
  refine lt_of_lt_of_le ?_ (Complex.abs_re_le_norm _)
  simp only [erkImplemented, List.mem_cons, List.not_mem_nil, or_false] at hm
  rcases hm with rfl | rfl | rfl | rfl | rfl | rfl <;>
  · simp [erkStab, horner]
    norm_num [abs_of_pos, abs_of_neg]

/-- **C65, the abscissae of `stability_limit`**: the negative powers of ten, the negative integers from `-9`, `-1.5`, tenths from `-1` to `0.5`, and
`1`; `0.5` occurs twice. -/
theorem C65_limit_points : limitPoints =
    (List.range 8).map (fun k => -(10 : ℝ) ^ (8 - k)) ++ (List.range 8).map (fun k => (k : ℝ) - 9) ++ [-(3 / 2)] ++
      (List.range 16).map (fun k => ((k : ℝ) - 10) / 10) ++ [1 / 2, 1] := by
  simp only [limitPoints, List.range, List.range.loop, List.map_cons, List.map_nil, List.cons_append, List.nil_append]
  norm_num

/-! ### C66: which files the program can write -/

theorem stab_b2_empty {z : ℂ} {A : List (List ℝ)} (hA : A.length ≠ 0) : stabilityFunction z A [] = .throws := by
  unfold stabilityFunction
  exact if_pos (Or.inl hA)

theorem limitPoints_cons : limitPoints = -1e8 :: limitPoints.tail := rfl

/-- **C66, the claim**: `stability_limit` writes its table for every implemented method. -/
def C66_claim : Prop := ∀ (name : String) (m : ℤ), ((name, m) ∈ irkMethods ∧ m ∈ irkImplemented) ∨ (name, m) ∈ erkMethods →
  ∃ lines, stabilityLimit name = .ret lines

/-- a method without embedded weights makes `stability_limit` throw on the first point or earlier -/
theorem limit_throws {sc : SolverCoeffs ℝ} (hA : sc.A.length ≠ 0) (hb : sc.b2 = []) : limitLines sc = .throws ∨
    limitLines sc = .assertFail ∨ limitLines sc = .ub := by
  unfold limitLines
  rw [limitPoints_cons, List.mapM_cons, hb]
  cases stabilityFunction ⟨-1e8, 0⟩ sc.A sc.b with
  | ret R =>
    left
    simp only [Outcome.ret_bind, stab_b2_empty hA]
    rfl
  | assertFail => right; left; rfl
  | throws => left; rfl
  | ub => right; right; rfl

theorem limit_no_ret {sc : SolverCoeffs ℝ} (hA : sc.A.length ≠ 0) (hb : sc.b2 = []) : ¬ ∃ l, limitLines sc = .ret l := by
  rintro ⟨l, hl⟩
  rcases limit_throws hA hb with h | h | h <;> rw [h] at hl <;> cases hl

/-- **C66 is refuted**: the three methods without embedded weights abort with an exception. -/
theorem C66_no_embedded : ∀ name ∈ ["IMPLICIT_EULER", "EXPLICIT_EULER", "RUNGE_KUTTA_4"],
    ¬ ∃ lines, stabilityLimit name = .ret lines := by
  intro name hn
  simp only [List.mem_cons, List.not_mem_nil, or_false] at hn
  rcases hn with rfl | rfl | rfl
  · have h : irkNamed "IMPLICIT_EULER" = 200 := by decide
    unfold stabilityLimit
    rw [h, if_pos (by norm_num)]
    exact limit_no_ret (sc := (implicitEuler : SolverCoeffs ℝ)) (by simp [implicitEuler]) rfl
  · have h : irkNamed "EXPLICIT_EULER" = 0 := by decide
    have h' : erkNamed "EXPLICIT_EULER" = 100 := by decide
    unfold stabilityLimit
    rw [h, h', if_neg (by norm_num), if_pos (by norm_num)]
    exact limit_no_ret (sc := (explicitEuler : SolverCoeffs ℝ)) (by simp [explicitEuler]) rfl
  · have h : irkNamed "RUNGE_KUTTA_4" = 0 := by decide
    have h' : erkNamed "RUNGE_KUTTA_4" = 110 := by decide
    unfold stabilityLimit
    rw [h, h', if_neg (by norm_num), if_pos (by norm_num)]
    exact limit_no_ret (sc := (rungeKutta4 : SolverCoeffs ℝ)) (by simp [rungeKutta4]) rfl

theorem C66_refuted : ¬ C66_claim := fun h =>
  C66_no_embedded "RUNGE_KUTTA_4" (by simp) (h "RUNGE_KUTTA_4" 110 (Or.inr (by decide)))

/-- two weight vectors of the same length: `stability_function` returns for both or for neither -/
theorem stab_b2 {z : ℂ} {A : List (List ℝ)} {b b2 : List ℝ} (hl : b2.length = b.length)
    (h : ∃ R, stabilityFunction z A b = .ret R) : ∃ R, stabilityFunction z A b2 = .ret R := by
  rw [C59_returns] at h ⊢
  rw [hl]
  exact h

theorem limit_ret {sc : SolverCoeffs ℝ} (hl : sc.b2.length = sc.b.length)
    (h : ∀ x ∈ limitPoints, ∃ R, stabilityFunction ⟨x, 0⟩ sc.A sc.b = .ret R) :
    ∃ lines, limitLines sc = .ret lines ∧ lines.length = 35 := by
  classical
  have h' : ∀ x, ∃ v, x ∈ limitPoints → (do
      let R ← stabilityFunction ⟨x, 0⟩ sc.A sc.b
      let R2 ← stabilityFunction ⟨x, 0⟩ sc.A sc.b2
      return (x, ‖R‖, ‖R2‖) : Outcome (ℝ × ℝ × ℝ)) = .ret v := by
    intro x
    by_cases hx : x ∈ limitPoints
    · obtain ⟨R, hR⟩ := h x hx
      obtain ⟨R2, hR2⟩ := stab_b2 hl ⟨R, hR⟩
      exact ⟨(x, ‖R‖, ‖R2‖), fun _ => by rw [hR, hR2]; rfl⟩
    · exact ⟨(0, 0, 0), fun h => absurd h hx⟩
  choose g hg using h'
  exact ⟨limitPoints.map g, mapM_all fun x hx => hg x hx, by simp [limitPoints]⟩

/-- a name that is in neither table: no matrix, and reading its elements throws -/
theorem C66_unknown {name : String} (h1 : irkNamed name = 0) (h2 : erkNamed name = 0) (e : Bool) :
    stabilityRegion name e = .throws := by
  unfold stabilityRegion regionMatrix
  simp only [h1, h2, ne_eq, not_true_eq_false, if_false, Outcome.pure_eq, Outcome.ret_bind]

example : irkNamed "GAUSS_LEGENDRE" = 0 ∧ erkNamed "GAUSS_LEGENDRE" = 0 := by decide

end Verif
