import Verif.Prop.ErkReal
import Verif.Prop.ErkTerm

/-!
# C125: a run may be interrupted and resumed

Over the real numbers.  The values of an explicit run are a function of its times and its first value, so two runs that visit the same times agree, whatever
their options; with a fixed step a run can be split at a grid point and can be prolonged.
-/

set_option linter.unusedSectionVars false

namespace Verif
open Spec

section unique
variable {s n : ℕ} {A : Fin s → Fin s → ℝ} {b c : Fin s → ℝ} {f : ℝ → (Fin n → ℝ) → (Fin n → ℝ)} {t h : ℝ} {y y' z' : Fin n → ℝ} {k l : Fin s → Fin n → ℝ}

/-- an explicit Runge–Kutta step has one result -/
theorem rk_step_unique (hA : ∀ i j, i ≤ j → A i j = 0) (h1 : IsRKStep A b c f t h y y' k) (h2 : IsRKStep A b c f t h y z' l) : k = l ∧ y' = z' := by
  have hk : ∀ (N : ℕ) (i : Fin s), i.val < N → k i = l i := by
    intro N
    induction N with
    | zero => intro i hi; omega
    | succ N ih =>
      intro i hi
      rw [h1.1 i, h2.1 i]
      have : ∑ j, A i j • k j = ∑ j, A i j • l j := by
        refine Finset.sum_congr rfl fun j _ => ?_
        rcases le_or_gt i j with hij | hij
        · rw [hA i j hij, zero_smul, zero_smul]
        · rw [ih j (by have := Fin.lt_def.mp hij; omega)]
      rw [this]
  have hkl : k = l := funext fun i => hk s i i.isLt
  refine ⟨hkl, ?_⟩
  rw [h1.2, h2.2, hkl]

end unique

variable {n : ℕ} {nd nd' : Bool} {f : ℝ → Vec ℝ n → Vec ℝ n} {t0 t0' t1 t1' dt dt' : ℝ} {y0 y0' : Vec ℝ n} {o o' : ErkOpts ℝ} {oo oo' : OutOpts} {m : ℤ}
  {fuel fuel' : ℕ} {out out' : ErkOutput ℝ n}

/-- the result does not depend on the fuel -/
theorem erkOdeint_fuel (h : erkOdeint nd f t0 t1 y0 o oo m dt fuel = some (.ret out)) (h' : erkOdeint nd f t0 t1 y0 o oo m dt fuel' = some (.ret out')) :
    out = out' := by
  have g := (erkOdeint_ret h).2
  have g' := (erkOdeint_ret h').2
  unfold erkGuts at g g'
  dsimp only at g g'
  split at g
  · cases g
  rename_i hd
  simp only [hd, Bool.false_eq_true, if_false] at g'
  cases hm : minOrder (erkCoeffs m : SolverCoeffs ℝ) with
  | none => rw [hm] at g; cases g
  | some mo =>
    rw [hm] at g g'
    have := runLoop_det g g'
    cases this
    rfl

/-- **C125 (values).**  Two runs of the same method for the same right-hand side, with whatever initial data, options and step sizes: if they visit the same
times from their samples `a` and `b` on, and agree in these samples, they agree in all the following ones, stages included. -/
theorem C125_values (h : erkOdeint nd f t0 t1 y0 o oo m dt fuel = some (.ret out)) (hpos : nd = false ∨ (0 < dt ∧ t0 < t1))
    (h' : erkOdeint nd' f t0' t1' y0' o' oo' m dt' fuel' = some (.ret out')) (hpos' : nd' = false ∨ (0 < dt' ∧ t0' < t1'))
    {a b N : ℕ} (ht : ∀ i ≤ N, out.tVals[a + i]? = out'.tVals[b + i]?) (hy : out.yVals[a]? = out'.yVals[b]?) :
    ∀ i ≤ N, out.yVals[a + i]? = out'.yVals[b + i]? ∧ (0 < i → out.stages[a + i]? = out'.stages[b + i]?) := by
  have hex := (shipped_facts (erkOdeint_ret h).1).1
  obtain ⟨l1, l2, -⟩ := C10_odeint h
  obtain ⟨l1', l2', -⟩ := C10_odeint h'
  intro i
  induction i with
  | zero => exact fun _ => ⟨hy, fun h0 => absurd h0 (lt_irrefl 0)⟩
  | succ i ih =>
    intro hi
    have hyi := (ih (by omega)).1
    have hti := ht i (by omega)
    have hti' := ht (i + 1) hi
    cases e1 : out.tVals[a + (i + 1)]? with
    | none =>
      have e1' := e1
      rw [hti'] at e1'
      rw [List.getElem?_eq_none_iff] at e1 e1'
      constructor
      · rw [List.getElem?_eq_none (by omega), List.getElem?_eq_none (by omega)]
      · intro _
        rw [List.getElem?_eq_none (by omega), List.getElem?_eq_none (by omega)]
    | some tn =>
      have e1' := e1
      rw [hti'] at e1'
      obtain ⟨hlt, -⟩ := List.getElem?_eq_some_iff.mp e1
      have e0 : out.tVals[a + i]? = some out.tVals[a + i] := List.getElem?_eq_getElem (by omega)
      have e0' := e0
      rw [hti] at e0'
      obtain ⟨y, yn, k, q1, q2, q3, q4⟩ := C12_odeint h hpos e0 (by rw [← e1]; congr 1)
      obtain ⟨z, zn, l, p1, p2, p3, p4⟩ := C12_odeint h' hpos' e0' (by rw [← e1']; congr 1)
      rw [q1, p1] at hyi
      cases hyi
      obtain ⟨rfl, rfl⟩ := rk_step_unique (fun i j hij => hex i j i.isLt j.isLt hij) q4 p4
      rw [← Nat.add_assoc, ← Nat.add_assoc, q2, p2, q3, p3]
      exact ⟨rfl, fun _ => rfl⟩

/-- the times of a run with a fixed step -/
theorem fixed_times (had : o.adaptive = false) (hs : StreamOK oo) (hdt : 0 < dt) (h01 : t0 < t1)
    (hms : o.maxSteps < 0 ∨ (⌈(t1 - t0) / dt⌉₊ : ℤ) ≤ o.maxSteps + 1) (h : erkOdeint nd f t0 t1 y0 o oo m dt fuel = some (.ret out)) :
    out.tVals = (List.range ⌈(t1 - t0) / dt⌉₊).map (fun k : ℕ => t0 + k * dt) ++ [t1] := by
  obtain ⟨fuel', out', h1, -, h2⟩ := C19_fixed_grid (nd := nd) (f := f) (y0 := y0) (erkOdeint_ret h).1 hs (Or.inl had) hdt h01 hms
  rw [erkOdeint_fuel h h1, h2]

/-- the entries of the grid -/
theorem grid_entry {M k : ℕ} (hk : k < M) (t0 dt t1 : ℝ) : ((List.range M).map (fun k : ℕ => t0 + k * dt) ++ [t1])[k]? = some (t0 + k * dt) := by
  rw [List.getElem?_append_left (by simpa using hk)]
  simp [hk]

theorem grid_last (M : ℕ) (t0 dt t1 : ℝ) : ((List.range M).map (fun k : ℕ => t0 + k * dt) ++ [t1])[M]? = some t1 := by
  rw [List.getElem?_append_right (by simp)]
  simp

theorem grid_length (M : ℕ) (t0 dt t1 : ℝ) : ((List.range M).map (fun k : ℕ => t0 + k * dt) ++ [t1]).length = M + 1 := by simp

/-- **C125 (horizon).**  With a fixed step, two runs that differ in their end only (`t1 ≤ t1'`) agree in all samples of the shorter one but its last: times,
values and stages. -/
theorem C125_horizon (had : o.adaptive = false) (hs : StreamOK oo) (hdt : 0 < dt) (h01 : t0 < t1) (h12 : t1 ≤ t1')
    (hms : o.maxSteps < 0 ∨ (⌈(t1' - t0) / dt⌉₊ : ℤ) ≤ o.maxSteps + 1)
    (h : erkOdeint nd f t0 t1 y0 o oo m dt fuel = some (.ret out)) (h' : erkOdeint nd f t0 t1' y0 o oo m dt fuel' = some (.ret out')) :
    out.tVals.dropLast <+: out'.tVals ∧ out.yVals.dropLast <+: out'.yVals ∧ ∀ i, 0 < i → i + 1 < out.tVals.length → out.stages[i]? = out'.stages[i]? := by
  have hle : ⌈(t1 - t0) / dt⌉₊ ≤ ⌈(t1' - t0) / dt⌉₊ := Nat.ceil_mono (by gcongr)
  have T := fixed_times had hs hdt h01 (hms.imp id fun h => le_trans (by exact_mod_cast hle) h) h
  have T' := fixed_times had hs hdt (lt_of_lt_of_le h01 h12) hms h'
  obtain ⟨l1, l2, -, -, -, hy⟩ := C10_odeint h
  obtain ⟨l1', l2', -, -, -, hy'⟩ := C10_odeint h'
  set M := ⌈(t1 - t0) / dt⌉₊ with hM
  set M' := ⌈(t1' - t0) / dt⌉₊ with hM'
  have hMpos : 0 < M := Nat.ceil_pos.mpr (div_pos (by linarith) hdt)
  have len : out.tVals.length = M + 1 := by rw [T, grid_length]
  have len' : out'.tVals.length = M' + 1 := by rw [T', grid_length]
  have tt : ∀ i ≤ M - 1, out.tVals[0 + i]? = out'.tVals[0 + i]? := by
    intro i hi
    rw [Nat.zero_add, T, T', grid_entry (by omega), grid_entry (by omega)]
  have key := C125_values h (Or.inr ⟨hdt, h01⟩) h' (Or.inr ⟨hdt, lt_of_lt_of_le h01 h12⟩) tt (by rw [← List.head?_eq_getElem?, ← List.head?_eq_getElem?, hy, hy'])
  refine ⟨?_, ?_, fun i h0 hi => ?_⟩
  · rw [List.prefix_iff_getElem?]
    intro i hi
    rw [List.length_dropLast] at hi
    rw [List.getElem_dropLast, ← List.getElem?_eq_getElem]
    have := tt i (by omega)
    rw [Nat.zero_add] at this
    exact this.symm
  · rw [List.prefix_iff_getElem?]
    intro i hi
    rw [List.length_dropLast] at hi
    rw [List.getElem_dropLast, ← List.getElem?_eq_getElem]
    have := (key i (by omega)).1
    rw [Nat.zero_add] at this
    exact this.symm
  · have := (key i (by omega)).2 h0
    rwa [Nat.zero_add] at this

/-- **C125 (restart).**  With a fixed step a run to `t2` is the run to a grid point `t1 = t0 + N dt` continued by the run from there, started with the last
value: the times and values are those of the first run followed by those of the second without its first sample. -/
theorem C125_restart {N : ℕ} {t2 : ℝ} {yN : Vec ℝ n} {outA outB outC : ErkOutput ℝ n} {fA fB fC : ℕ} (had : o.adaptive = false) (hs : StreamOK oo) (hdt : 0 < dt)
    (hN : 0 < N) (h12 : t0 + N * dt < t2) (hms : o.maxSteps < 0 ∨ (⌈(t2 - t0) / dt⌉₊ : ℤ) ≤ o.maxSteps + 1)
    (hA : erkOdeint nd f t0 t2 y0 o oo m dt fA = some (.ret outA))
    (hB : erkOdeint nd f t0 (t0 + N * dt) y0 o oo m dt fB = some (.ret outB)) (hyN : outB.yVals.getLast? = some yN)
    (hC : erkOdeint nd f (t0 + N * dt) t2 yN o oo m dt fC = some (.ret outC)) :
    outA.tVals = outB.tVals ++ outC.tVals.tail ∧ outA.yVals = outB.yVals ++ outC.yVals.tail := by
  have hNR : (0 : ℝ) < N := by exact_mod_cast hN
  have h01 : t0 < t0 + N * dt := by have := mul_pos hNR hdt; linarith
  have hdt' : dt ≠ 0 := hdt.ne'
  have eN : ⌈(t0 + N * dt - t0) / dt⌉₊ = N := by rw [show (t0 + N * dt - t0) / dt = (N : ℝ) by field_simp; ring, Nat.ceil_natCast]
  have hlt : (N : ℝ) < (t2 - t0) / dt := by rw [lt_div_iff₀ hdt]; linarith
  have eC : ⌈(t2 - (t0 + N * dt)) / dt⌉₊ + N = ⌈(t2 - t0) / dt⌉₊ := by
    rw [show (t2 - t0) / dt = (t2 - (t0 + N * dt)) / dt + (N : ℝ) by field_simp; ring, Nat.ceil_add_natCast]
    rw [div_nonneg_iff]
    exact Or.inl ⟨by linarith, hdt.le⟩
  have TB := fixed_times had hs hdt h01 (hms.imp id fun h => by rw [eN]; have : N ≤ ⌈(t2 - t0) / dt⌉₊ := by omega
                                                                omega) hB
  have TA := fixed_times had hs hdt (h01.trans h12) hms hA
  have TC := fixed_times had hs hdt h12 (hms.imp id fun h => by omega) hC
  rw [eN] at TB
  obtain ⟨k, hk⟩ : ∃ k, ⌈(t2 - (t0 + N * dt)) / dt⌉₊ = k + 1 :=
    Nat.exists_eq_succ_of_ne_zero (Nat.ceil_pos.mpr (div_pos (by linarith) hdt)).ne'
  rw [← eC, hk] at TA
  rw [hk] at TC
  obtain ⟨lB, -, -, -, -, yB⟩ := C10_odeint hB
  obtain ⟨lA, -, -, -, -, yA⟩ := C10_odeint hA
  obtain ⟨lC, -, -, -, -, yC⟩ := C10_odeint hC
  have nA : outA.tVals.length = k + 1 + N + 1 := by rw [TA, grid_length]
  have nB : outB.tVals.length = N + 1 := by rw [TB, grid_length]
  have nC : outC.tVals.length = k + 1 + 1 := by rw [TC, grid_length]
  have tAB : ∀ i ≤ N, outA.tVals[0 + i]? = outB.tVals[0 + i]? := by
    intro i hi
    rw [Nat.zero_add, TA, grid_entry (by omega), TB]
    rcases hi.lt_or_eq with hi | rfl
    · rw [grid_entry hi]
    · rw [grid_last]
  have tAC : ∀ i ≤ k + 1, outA.tVals[N + i]? = outC.tVals[0 + i]? := by
    intro i hi
    rw [Nat.zero_add, TA, TC]
    rcases hi.lt_or_eq with hi | rfl
    · rw [grid_entry (by omega), grid_entry hi]
      congr 1
      push_cast
      ring
    · rw [show N + (k + 1) = k + 1 + N by omega, grid_last, grid_last]
  have kAB := C125_values hA (Or.inr ⟨hdt, h01.trans h12⟩) hB (Or.inr ⟨hdt, h01⟩) tAB
    (by rw [← List.head?_eq_getElem?, ← List.head?_eq_getElem?, yA, yB])
  have yAN : outA.yVals[N]? = some yN := by
    have := (kAB N le_rfl).1
    rw [Nat.zero_add] at this
    rw [this, ← hyN, List.getLast?_eq_getElem?, lB, nB]
    rfl
  have kAC := C125_values hA (Or.inr ⟨hdt, h01.trans h12⟩) hC (Or.inr ⟨hdt, h12⟩) tAC
    (by rw [yAN, ← List.head?_eq_getElem?, yC])
  have join : ∀ {T : Type} (a b c : List T), a.length = k + 1 + N + 1 → b.length = N + 1 → c.length = k + 1 + 1 →
      (∀ i ≤ N, a[i]? = b[i]?) → (∀ i ≤ k + 1, a[N + i]? = c[i]?) → a = b ++ c.tail := by
    intro T a b c ha hb hc h1 h2
    apply List.ext_getElem?
    intro i
    rcases lt_or_ge i (N + 1) with hi | hi
    · rw [List.getElem?_append_left (by omega), h1 i (by omega)]
    · rw [List.getElem?_append_right (by omega), hb, List.getElem?_tail]
      rcases le_or_gt i (k + 1 + N) with hi' | hi'
      · have := h2 (i - N) (by omega)
        rw [show N + (i - N) = i by omega] at this
        rw [this]
        congr 1
        omega
      · rw [List.getElem?_eq_none (by omega), List.getElem?_eq_none (by omega)]
  constructor
  · refine join _ _ _ nA nB nC (fun i hi => ?_) (fun i hi => ?_)
    · have := tAB i hi; rwa [Nat.zero_add] at this
    · have := tAC i hi; rwa [Nat.zero_add] at this
  · refine join _ _ _ (lA.trans nA) (lB.trans nB) (lC.trans nC) (fun i hi => ?_) (fun i hi => ?_)
    · have := (kAB i hi).1; rwa [Nat.zero_add] at this
    · have := (kAC i hi).1; rwa [Nat.zero_add] at this

/-- options of the examples -/
noncomputable def restartOpts : ErkOpts ℝ := { adaptive := false, relTol := 1, absTol := 1, maxDt := 0, maxSteps := -1 }

/-- Dormand–Prince (first same as last) with steps 1/4 for `y' = t y`: the run to 6/5 is the run to 1/2 and the run from there, and it begins with the first
four samples of the run to 9/10 -/
example : ∃ fA fB fC fD, ∃ (a b c d : ErkOutput ℝ 1) (yN : Vec ℝ 1),
    erkOdeint false (fun t y k => t * y k) 0 (6 / 5) (fun _ => 1) restartOpts OutOpts.dflt 131 (1 / 4) fA = some (.ret a) ∧
    erkOdeint false (fun t y k => t * y k) 0 (0 + ((2 : ℕ) : ℝ) * (1 / 4)) (fun _ => 1) restartOpts OutOpts.dflt 131 (1 / 4) fB = some (.ret b) ∧
    b.yVals.getLast? = some yN ∧
    erkOdeint false (fun t y k => t * y k) (0 + ((2 : ℕ) : ℝ) * (1 / 4)) (6 / 5) yN restartOpts OutOpts.dflt 131 (1 / 4) fC = some (.ret c) ∧
    erkOdeint false (fun t y k => t * y k) 0 (9 / 10) (fun _ => 1) restartOpts OutOpts.dflt 131 (1 / 4) fD = some (.ret d) ∧
    a.yVals = b.yVals ++ c.yVals.tail ∧ d.yVals.dropLast <+: a.yVals := by
  have hs : StreamOK OutOpts.dflt := fun h => by revert h; decide
  obtain ⟨fA, a, hA, -⟩ := C19_fixed_grid (n := 1) (nd := false) (f := fun t y k => t * y k) (t0 := 0) (t1 := 6 / 5) (y0 := fun _ => 1) (o := restartOpts)
    (oo := OutOpts.dflt) (dt := 1 / 4) (m := 131) (by decide) hs (Or.inl rfl) (by norm_num) (by norm_num) (Or.inl (by norm_num [restartOpts]))
  obtain ⟨fB, b, hB, -⟩ := C19_fixed_grid (n := 1) (nd := false) (f := fun t y k => t * y k) (t0 := 0) (t1 := 0 + (2 : ℕ) * (1 / 4)) (y0 := fun _ => 1)
    (o := restartOpts) (oo := OutOpts.dflt) (dt := 1 / 4) (m := 131) (by decide) hs (Or.inl rfl) (by norm_num) (by norm_num)
    (Or.inl (by norm_num [restartOpts]))
  obtain ⟨fD, d, hD, -⟩ := C19_fixed_grid (n := 1) (nd := false) (f := fun t y k => t * y k) (t0 := 0) (t1 := 9 / 10) (y0 := fun _ => 1) (o := restartOpts)
    (oo := OutOpts.dflt) (dt := 1 / 4) (m := 131) (by decide) hs (Or.inl rfl) (by norm_num) (by norm_num) (Or.inl (by norm_num [restartOpts]))
  obtain ⟨lB, -, -, -, -, yB⟩ := C10_odeint hB
  obtain ⟨yN, hyN⟩ : ∃ yN, b.yVals.getLast? = some yN := by
    cases hl : b.yVals.getLast? with
    | some y => exact ⟨y, rfl⟩
    | none =>
      rw [List.getLast?_eq_none_iff] at hl
      rw [hl] at yB
      cases yB
  obtain ⟨fC, c, hC, -⟩ := C19_fixed_grid (n := 1) (nd := false) (f := fun t y k => t * y k) (t0 := 0 + (2 : ℕ) * (1 / 4)) (t1 := 6 / 5) (y0 := yN)
    (o := restartOpts) (oo := OutOpts.dflt) (dt := 1 / 4) (m := 131) (by decide) hs (Or.inl rfl) (by norm_num) (by norm_num)
    (Or.inl (by norm_num [restartOpts]))
  exact ⟨fA, fB, fC, fD, a, b, c, d, yN, hA, hB, hyN, hC, hD,
    (C125_restart rfl hs (by norm_num) (by norm_num) (by norm_num) (Or.inl (by norm_num [restartOpts])) hA hB hyN hC).2,
    (C125_horizon rfl hs (by norm_num) (by norm_num) (by norm_num) (Or.inl (by norm_num [restartOpts])) hD hA).2.1⟩

end Verif
