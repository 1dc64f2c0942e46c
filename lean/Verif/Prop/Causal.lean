import Verif.Prop.BConverge
import Verif.Prop.Multistep
import Verif.Prop.MsConverge
import Verif.Prop.ErkReal

/-!
# C115: what the right-hand side does outside the interval does not matter
-/

namespace Verif

/-- Two loops whose passes agree on the states that satisfy an invariant. -/
theorem runLoop_agree {S R : Type} {body body' : S → LoopStep S R} {Inv : S → Prop} (h : ∀ s, Inv s → body s = body' s)
    (hn : ∀ s s', Inv s → body s = .next s' → Inv s') : ∀ (k : ℕ) {s : S}, Inv s → runLoop body k s = runLoop body' k s := by
  intro k
  induction k with
  | zero => intro s _; rfl
  | succ k ih =>
    intro s hs
    unfold runLoop
    rw [← h s hs]
    cases hb : body s with
    | done r => rfl
    | next s' => exact ih (hn s s' hs hb)

/-! ### the explicit integrators -/

section explicit
variable {n : ℕ} {f g : ℝ → Vec ℝ n → Vec ℝ n}

theorem stageLoop_agree {sc : SolverCoeffs ℝ} {t dt : ℝ} (h : ∀ i < sc.ns, ∀ y, f (t + sc.cn i * dt) y = g (t + sc.cn i * dt) y) (y : Vec ℝ n)
    (start : ℕ) (Ks : ℕ → Vec ℝ n) (sol : ErkOutput ℝ n) : stageLoop f sc t dt y start Ks sol = stageLoop g sc t dt y start Ks sol := by
  unfold stageLoop
  apply List.foldl_ext
  intro st i hi
  rw [List.mem_range'] at hi
  obtain ⟨k, hk, rfl⟩ := hi
  have e : ∀ z, evalFun f (t + sc.cn (start + 1 * k) * dt) z st.2 = evalFun g (t + sc.cn (start + 1 * k) * dt) z st.2 := by
    intro z
    unfold evalFun
    rw [h _ (by omega)]
  simp only [e]

theorem erkBody_agree {nd : Bool} {t0 t1 : ℝ} {o : ErkOpts ℝ} {oo : OutOpts} {sc : SolverCoeffs ℝ} {mo : ℕ}
    (hcn : ∀ i, i < sc.ns → 0 ≤ sc.cn i ∧ sc.cn i ≤ 1) (h : ∀ t y, t0 ≤ t → t ≤ t1 → f t y = g t y) {s : ErkState ℝ n} (hs : TimeInv t0 t1 s) :
    erkBody nd f t1 o oo sc mo s = erkBody nd g t1 o oo sc mo s := by
  unfold erkBody
  by_cases hl : ltb s.t t1 = true
  · have hl' : s.t < t1 := by simpa using hl
    have e : attemptAt f t1 o sc mo s = attemptAt g t1 o sc mo s := by
      unfold attemptAt attempt
      rw [stageLoop_agree (g := g)]
      intro i hi y
      have hd : 0 ≤ clipDt s.t t1 s.dt ∧ s.t + clipDt s.t t1 s.dt ≤ t1 := by
        rw [clipDt_real]
        exact ⟨le_min hs.dt.le (by linarith), by have := min_le_right s.dt (t1 - s.t); linarith⟩
      obtain ⟨c0, c1⟩ := hcn i hi
      have h1 := mul_nonneg c0 hd.1
      have h2 := mul_le_mul_of_nonneg_right c1 hd.1
      exact h _ _ (by linarith [hs.lo]) (by linarith)
    simp only [e]
  · rw [if_neg hl, if_neg hl]

/-- **C115 (explicit).**  Right-hand sides that agree on `[t0, t1]` have the same run: the outcome, everything that is returned and even whether the
call returns. -/
theorem C115_erk {nd : Bool} {t0 t1 dt : ℝ} (hpos : nd = false ∨ (0 < dt ∧ t0 < t1)) (h : ∀ t y, t0 ≤ t → t ≤ t1 → f t y = g t y) (y0 : Vec ℝ n)
    (o : ErkOpts ℝ) (oo : OutOpts) (m : ℤ) (fuel : ℕ) :
    erkOdeint nd f t0 t1 y0 o oo m dt fuel = erkOdeint nd g t0 t1 y0 o oo m dt fuel := by
  unfold erkOdeint
  generalize (if (o.adaptive && (erkCoeffs m : SolverCoeffs ℝ).b2.length == 0) = true then { o with adaptive := false } else o) = o'
  simp only []
  by_cases hv : (!nd && !erkVerify (erkCoeffs m : SolverCoeffs ℝ)) = true
  · rw [if_pos hv, if_pos hv]
  rw [if_neg hv, if_neg hv]
  unfold erkGuts
  simp only []
  by_cases hd : (!nd && !(ltb (lit 0) (clipDt t0 t1 dt))) = true
  · rw [if_pos hd, if_pos hd]
  rw [if_neg hd, if_neg hd]
  have hp : 0 < clipDt t0 t1 dt := by
    rcases hpos with rfl | ⟨h1, h2⟩
    · simpa using hd
    · rw [clipDt_real]; exact lt_min h1 (by linarith)
  have h01 : t0 < t1 := by
    rw [clipDt_real] at hp
    have := lt_of_lt_of_le hp (min_le_right _ _)
    linarith
  by_cases hm : m ∈ erkImplemented
  · obtain ⟨-, -, -, hcn, -⟩ := shipped_facts hm
    cases minOrder (erkCoeffs m : SolverCoeffs ℝ) with
    | none => rfl
    | some mo =>
      have hi : erkInit f t0 y0 (clipDt t0 t1 dt) (erkCoeffs m) = erkInit g t0 y0 (clipDt t0 t1 dt) (erkCoeffs m) := by
        unfold erkInit evalFun
        rw [h _ _ (le_refl t0) h01.le]
      simp only [hi]
      exact runLoop_agree (Inv := TimeInv t0 t1) (fun s hs => erkBody_agree hcn h hs) (fun s s' hs hb => timeInv_next hs hb) fuel
        (timeInv_init h01.le hp)
  · have : minOrder (erkCoeffs m : SolverCoeffs ℝ) = none := by
      unfold minOrder
      rw [(erkCoeffs_order_none hm).1]
    rw [this]

end explicit

/-! ### the implicit integrators -/

/-- two problems that agree on an interval, Jacobi matrices included -/
def AgreeOn {n : ℕ} (fn gn : OdeFun ℝ n) (a b : ℝ) : Prop :=
  ∀ t y, a ≤ t → t ≤ b → fn.fn t y = gn.fn t y ∧ fn.jac t y = gn.jac t y

/-- all nodes are in `[0,1]` -/
def nodesOK {d : ℕ} (sq : SolverCoeffs (QS d)) : Bool :=
  (List.range sq.ns).all fun i => posQ (sq.c.getD i 0) && posQ (1 - sq.c.getD i 0)

theorem nodes_shipped : ∀ m ∈ irkImplemented, nodesOK (irkCoeffs m : SolverCoeffs (QS (rootOf m))) = true := by
  decide +kernel

theorem irk_nodes {m : ℤ} (hm : m ∈ irkImplemented) (i : Fin (irkCoeffs m : SolverCoeffs ℝ).ns) :
    0 ≤ (irkCoeffs m : SolverCoeffs ℝ).cn i ∧ (irkCoeffs m : SolverCoeffs ℝ).cn i ≤ 1 := by
  have h := img_shipped hm
  have hs := nodes_shipped m hm
  simp only [nodesOK, List.all_eq_true, List.mem_range, Bool.and_eq_true] at hs
  obtain ⟨h1, h2⟩ := hs i (by rw [← h.ns]; exact i.2)
  have k1 := pos_ev h1
  have k2 := pos_ev h2
  rw [map_sub, map_one] at k2
  rw [h.cn]
  exact ⟨k1, by linarith⟩

section implicit
variable {n : ℕ} {fn gn : OdeFun ℝ n} {nd : Bool} {la : LinAlg ℝ}

theorem solveStages_agree {sc : SolverCoeffs ℝ} {t dt : ℝ} {y : Vec ℝ n}
    (hf : ∀ (i : Fin sc.ns) z, fn.fn (t + sc.cn i * dt) z = gn.fn (t + sc.cn i * dt) z) (hj : fn.jac t y = gn.jac t y) (maxit refresh : ℤ)
    (xtol Rtol : ℝ) (count : IrkCounters) (log : CallLog ℝ n) :
    newtonSolveStages nd la fn sc t dt y maxit refresh xtol Rtol count log =
      newtonSolveStages nd la gn sc t dt y maxit refresh xtol Rtol count log := by
  have hR : ∀ Y, constructR fn.fn sc t dt y Y = constructR gn.fn sc t dt y Y := by
    intro Y
    have : stageFuns fn.fn sc t dt y Y = stageFuns gn.fn sc t dt y Y := by
      funext p
      simp only [stageFuns, stageArgI, hf]
    unfold constructR
    rw [this]
  have hJ : ∀ s, refreshJac nd la fn sc t dt y s = refreshJac nd la gn sc t dt y s := by
    intro s
    unfold refreshJac
    rw [hj]
  have hS : ∀ s, stageStep nd la fn sc t dt y refresh xtol Rtol s = stageStep nd la gn sc t dt y refresh xtol Rtol s := by
    intro s
    unfold stageStep
    simp only [hR, hJ]
  have hI : ∀ k s, stageIter nd la fn sc t dt y refresh xtol Rtol k s = stageIter nd la gn sc t dt y refresh xtol Rtol k s := by
    intro k
    induction k with
    | zero => intro s; rfl
    | succ k ih =>
      intro s
      simp only [stageIter, hS, ih]
  unfold newtonSolveStages
  simp only [hR, hJ, hI, hj]

theorem irkBody_agree {t0 t1 : ℝ} {o : IrkOpts ℝ} {no : NewtonOpts ℝ} {oo : OutOpts} {sc : SolverCoeffs ℝ} {mo : ℕ} {d d2 : Vec ℝ sc.ns}
    (hcn : ∀ i : Fin sc.ns, 0 ≤ sc.cn i ∧ sc.cn i ≤ 1) (h : AgreeOn fn gn t0 t1) {s : IrkState ℝ (sc.ns * n) n} (hs : TimeInvI t0 t1 s) :
    irkBody nd la fn t1 o no oo sc mo d d2 s = irkBody nd la gn t1 o no oo sc mo d d2 s := by
  unfold irkBody
  by_cases hl : ltb s.t t1 = true
  · have hl' : s.t < t1 := by simpa using hl
    obtain ⟨g1, g2, -⟩ := clip_factsI hs hl'
    have hA : ∀ r, attemptI la fn o sc mo d d2 s (clipDt s.t t1 s.dt) r = attemptI la gn o sc mo d d2 s (clipDt s.t t1 s.dt) r := by
      intro r
      have e : ∀ z, fn.fn s.t z = gn.fn s.t z := fun z => (h _ z hs.lo hs.hi).1
      unfold attemptI
      simp only [e]
    rw [if_pos hl, if_pos hl]
    simp only [hA]
    rw [solveStages_agree (gn := gn)]
    · intro i z
      obtain ⟨c0, c1⟩ := hcn i
      have h1 := mul_nonneg c0 g1.le
      have h2 := mul_le_mul_of_nonneg_right c1 g1.le
      exact (h _ _ (by linarith [hs.lo]) (by linarith)).1
    · exact (h _ _ hs.lo hs.hi).2
  · rw [if_neg hl, if_neg hl]

theorem irkGuts_agree {t0 t1 dt : ℝ} (hpos : nd = false ∨ (0 < dt ∧ t0 < t1)) (h : AgreeOn fn gn t0 t1) (y0 : Vec ℝ n) (o : IrkOpts ℝ)
    (oo : OutOpts) {sc : SolverCoeffs ℝ} (hcn : ∀ i : Fin sc.ns, 0 ≤ sc.cn i ∧ sc.cn i ≤ 1) (fuel : ℕ) :
    irkGuts nd la fn t0 t1 y0 o dt sc oo fuel = irkGuts nd la gn t0 t1 y0 o dt sc oo fuel := by
  unfold irkGuts
  simp only []
  cases o.newtonOpts with
  | none => rfl
  | some no =>
  simp only []
  by_cases hd : (!nd && !(ltb (lit 0) (clipDt t0 t1 dt))) = true
  · rw [if_pos hd, if_pos hd]
  rw [if_neg hd, if_neg hd]
  have hp : 0 < clipDt t0 t1 dt := by
    rcases hpos with rfl | ⟨h1, h2⟩
    · simpa using hd
    · rw [clipDt_real]; exact lt_min h1 (by linarith)
  have h01 : t0 < t1 := by
    rw [clipDt_real] at hp
    have := lt_of_lt_of_le hp (min_le_right _ _)
    linarith
  cases minOrder sc with
  | none => rfl
  | some mo =>
    simp only []
    by_cases hr : sc.nRows ≠ sc.ns ∨ sc.nCols ≠ sc.ns
    · rw [if_pos hr, if_pos hr]
    rw [if_neg hr, if_neg hr]
    cases la.inv sc.mat with
    | none => rfl
    | some Ai =>
      simp only []
      by_cases hb : sc.b2.length ≠ sc.ns
      · rw [if_pos hb, if_pos hb]
      rw [if_neg hb, if_neg hb]
      exact runLoop_agree (Inv := TimeInvI t0 t1) (fun s hs => irkBody_agree hcn h hs) (fun s s' hs hb => timeInvI_next hs hb) fuel
        (timeInvI_init h01.le hp no.maxit)

/-- **C115 (implicit).** -/
theorem C115_irk {t0 t1 dt : ℝ} (hpos : nd = false ∨ (0 < dt ∧ t0 < t1)) (h : AgreeOn fn gn t0 t1) (y0 : Vec ℝ n) (o : IrkOpts ℝ) (oo : OutOpts)
    (m : ℤ) (fuel : ℕ) : irkOdeint nd la fn t0 t1 y0 o oo m dt fuel = irkOdeint nd la gn t0 t1 y0 o oo m dt fuel := by
  unfold irkOdeint
  simp only []
  rw [irkGuts_agree hpos h]
  by_cases hm : m ∈ irkImplemented
  · exact irk_nodes hm
  · intro i
    exfalso
    have hb : (irkCoeffs m : SolverCoeffs ℝ).b = [] := by
      simp only [irkImplemented, List.mem_cons, List.not_mem_nil, or_false, not_or] at hm
      simp [irkCoeffs, hm]
    have := i.2
    simp only [SolverCoeffs.ns, hb, List.length_nil] at this
    omega

/-! ### the multistep integrators -/

theorem bootIter_agree {fuel : ℕ} {dt T : ℝ} (hdt : 0 < dt) : ∀ (k : ℕ) (t : ℝ) (y : Vec ℝ n), t + k * dt ≤ T → AgreeOn fn gn t T →
    bootIter nd la fn fuel dt k t y = bootIter nd la gn fuel dt k t y := by
  intro k
  induction k with
  | zero => intro t y _ _; rfl
  | succ k ih =>
    intro t y hT h
    have hk : 0 ≤ (k : ℝ) * dt := by positivity
    push_cast at hT
    have e : bootRun nd la fn fuel bootOut t dt y = bootRun nd la gn fuel bootOut t dt y := by
      unfold bootRun
      refine C115_irk (Or.inr ⟨by rw [lit_real]; norm_num, by linarith⟩) (fun s z h1 h2 => h s z h1 (by linarith)) _ _ _ _ _
    unfold bootIter
    rw [e]
    have e2 : ∀ y', bootIter nd la fn fuel dt k (t + dt) y' = bootIter nd la gn fuel dt k (t + dt) y' := fun y' =>
      ih (t + dt) y' (by linarith) (fun s z h1 h2 => h s z (by linarith) h2)
    simp only [e2]

theorem bootstrap_agree {fuel : ℕ} {order : ℤ} {dt t T : ℝ} (hdt : 0 < dt) (hT : t + (order - 1).toNat * dt ≤ T) (h : AgreeOn fn gn t T)
    (y : Vec ℝ n) : bootstrap nd la fn fuel order y t dt = bootstrap nd la gn fuel order y t dt := by
  unfold bootstrap
  rw [bootIter_agree hdt (order - 1).toNat t y hT h]

theorem start_time {dt t0 : ℝ} (hdt : 0 ≤ dt) {b : CBuf (Vec ℝ n)} {y0 : Vec ℝ n} {k : ℕ} {st0 : NewtonStatus ℝ} {s : MsState ℝ n}
    (h : msStart b ((List.range k).map fun i => (gridPt dt t0 i, y0)) st0 = .ret s) : t0 ≤ s.t := by
  unfold msStart at h
  split at h <;> try cases h
  split at h
  · cases h
  next t y hl =>
    cases h
    have hm := List.mem_of_getLast? hl
    simp only [List.mem_map, List.mem_range, Prod.mk.injEq] at hm
    obtain ⟨i, -, hi, -⟩ := hm
    rw [← hi, gridPt_real]
    have : 0 ≤ (i : ℝ) * dt := by positivity
    show t0 ≤ t0 + i * dt
    linarith

variable {t0 t1 dt : ℝ} {y0 : Vec ℝ n} {order : ℤ} {st0 : NewtonStatus ℝ} {fuelB fuel : ℕ}

/-- **C115 (`adams_bashforth`).**  Right-hand sides that agree on `[t0, t1]` and on the interval of the bootstrap have the same run. -/
theorem C115_adams_bashforth (hpos : nd = false ∨ (0 < dt ∧ t0 < t1)) {T : ℝ} (h1 : t1 ≤ T)
    (hT : t0 + (order - 1).toNat * min dt (t1 - t0) ≤ T) (h : AgreeOn fn gn t0 T) :
    adamsBashforth nd la fn t0 t1 y0 order dt st0 fuelB fuel = adamsBashforth nd la gn t0 t1 y0 order dt st0 fuelB fuel := by
  unfold adamsBashforth
  simp only []
  by_cases hd : (!nd && !(ltb (lit 0) (clipDt t0 t1 dt))) = true
  · rw [if_pos hd, if_pos hd]
  rw [if_neg hd, if_neg hd]
  have hp : 0 < clipDt t0 t1 dt := by
    rcases hpos with rfl | ⟨h1, h2⟩
    · simpa using hd
    · rw [clipDt_real]; exact lt_min h1 (by linarith)
  rw [← clipDt_real] at hT
  rw [bootstrap_agree hp hT h]
  cases CBuf.construct (fun _ => lit 0 : Vec ℝ n) order with
  | assertFail => rfl
  | throws => rfl
  | ub => rfl
  | ret b =>
    simp only []
    cases hl : bootstrap nd la gn fuelB order y0 t0 (clipDt t0 t1 dt) with
    | none => rfl
    | some r =>
      cases r with
      | assertFail => rfl
      | throws => rfl
      | ub => rfl
      | ret l =>
        simp only []
        have hl' := bootstrap_ret hl
        cases hs : msStart b l st0 with
        | assertFail => rfl
        | throws => rfl
        | ub => rfl
        | ret s =>
          simp only []
          rw [hl'] at hs
          refine runLoop_agree (Inv := fun s => t0 ≤ s.t) ?_ ?_ fuel (start_time hp.le hs)
          · intro s hs
            unfold abBody
            by_cases hlt : ltb s.t t1 = true
            · have hlt' : s.t < t1 := by simpa using hlt
              have e : fn.fn s.t = gn.fn s.t := funext fun z => (h _ z hs (by linarith)).1
              have e2 : abStep nd fn.fn order s.y s.t (clipDt t0 t1 dt) s.hist = abStep nd gn.fn order s.y s.t (clipDt t0 t1 dt) s.hist := by
                unfold abStep
                rw [e]
              rw [e2]
            · rw [if_neg hlt, if_neg hlt]
          · intro s s' hs hb
            unfold abBody at hb
            split at hb
            · split at hb <;> try cases hb
              split at hb <;> try cases hb
              show t0 ≤ s.t + clipDt t0 t1 dt
              linarith
            · cases hb

/-- **C115 (`bdf`), what is true.**  Right-hand sides that agree up to the first grid point at or behind `t1`, hence on `[t0, t1 + dt]`, and on the
interval of the bootstrap have the same run. -/
theorem C115_bdf_partial (hpos : nd = false ∨ (0 < dt ∧ t0 < t1)) {T : ℝ} (h1 : t1 + min dt (t1 - t0) ≤ T)
    (hT : t0 + order.toNat * min dt (t1 - t0) ≤ T) (h : AgreeOn fn gn t0 T) :
    bdf nd la fn t0 t1 y0 order dt st0 fuelB fuel = bdf nd la gn t0 t1 y0 order dt st0 fuelB fuel := by
  unfold bdf
  simp only []
  by_cases h6 : 6 < order
  · rw [if_pos h6, if_pos h6]
  rw [if_neg h6, if_neg h6]
  by_cases h0 : order ≤ 0
  · rw [if_pos h0, if_pos h0]
  rw [if_neg h0, if_neg h0]
  by_cases hd : (!nd && !(ltb (lit 0) (clipDt t0 t1 dt))) = true
  · rw [if_pos hd, if_pos hd]
  rw [if_neg hd, if_neg hd]
  have hp : 0 < clipDt t0 t1 dt := by
    rcases hpos with rfl | ⟨h1, h2⟩
    · simpa using hd
    · rw [clipDt_real]; exact lt_min h1 (by linarith)
  rw [← clipDt_real] at hT h1
  rw [bootstrap_agree hp (by rw [add_sub_cancel_right]; exact hT) h]
  cases CBuf.construct (fun _ => lit 0 : Vec ℝ n) (order + 1) with
  | assertFail => rfl
  | throws => rfl
  | ub => rfl
  | ret b =>
    simp only []
    cases hl : bootstrap nd la gn fuelB (order + 1) y0 t0 (clipDt t0 t1 dt) with
    | none => rfl
    | some r =>
      cases r with
      | assertFail => rfl
      | throws => rfl
      | ub => rfl
      | ret l =>
        simp only []
        have hl' := bootstrap_ret hl
        cases hs : msStart b l st0 with
        | assertFail => rfl
        | throws => rfl
        | ub => rfl
        | ret s =>
          simp only []
          rw [hl'] at hs
          refine runLoop_agree (Inv := fun s => t0 ≤ s.t) ?_ ?_ fuel (start_time hp.le hs)
          · intro s hs
            unfold bdfBody
            by_cases hlt : ltb s.t t1 = true
            · have hlt' : s.t < t1 := by simpa using hlt
              have e : ∀ c, bdfFun fn (clipDt t0 t1 dt * bdfW order) (s.t + clipDt t0 t1 dt) c =
                  bdfFun gn (clipDt t0 t1 dt * bdfW order) (s.t + clipDt t0 t1 dt) c := by
                intro c
                unfold bdfFun
                have e1 := fun z => (h (s.t + clipDt t0 t1 dt) z (by linarith) (by linarith)).1
                have e2 := fun z => (h (s.t + clipDt t0 t1 dt) z (by linarith) (by linarith)).2
                simp only [e1, e2]
              simp only [e]
            · rw [if_neg hlt, if_neg hlt]
          · intro s s' hs hb
            unfold bdfBody at hb
            generalize bdfInterp nd order s.hist order.toNat 0 (fun _ => lit 0) = c at hb
            split at hb
            · cases c with
              | assertFail => cases hb
              | throws => cases hb
              | ub => cases hb
              | ret c =>
                simp only [] at hb
                generalize newtonIterate la _ s.y bdfNewton s.newton true = x at hb
                rcases x with _ | (⟨y, st⟩ | _ | _ | _) <;> try cases hb
                simp only [] at hb
                split at hb
                · cases hb
                · generalize s.hist.pushBack y = z at hb
                  cases z <;> try cases hb
                  show t0 ≤ s.t + clipDt t0 t1 dt
                  linarith
            · cases hb

/-- **C115 (`adams_bashforth`, what is returned).**  For what is returned it is enough that the right-hand sides agree on `[t0, t1)`; the Jacobi
matrices, the linear algebra and the bootstrap play no role. -/
theorem C115_adams_bashforth_output (h5 : order ≤ 5) {nd' : Bool} {la' : LinAlg ℝ} {st0' : NewtonStatus ℝ} {fuelB' fuel' : ℕ}
    {out out' : MsOutput ℝ n} (hag : ∀ t y, t0 ≤ t → t < t1 → fn.fn t y = gn.fn t y)
    (h : adamsBashforth nd la fn t0 t1 y0 order dt st0 fuelB fuel = some (.ret out))
    (h' : adamsBashforth nd' la' gn t0 t1 y0 order dt st0' fuelB' fuel' = some (.ret out')) (hdt : 0 ≤ dt) (h01 : t0 ≤ t1) : out = out' := by
  obtain ⟨N, a1, a2, a3, a4, a5, a6, a7⟩ := C53_adams_bashforth h
  obtain ⟨N', b1, b2, b3, b4, b5, b6, b7⟩ := C53_adams_bashforth h'
  obtain ⟨y, c1, c2, c3⟩ := ab_values h5 h
  obtain ⟨z, d1, d2, d3⟩ := ab_values h5 h'
  have ho : 0 < order := (ab_run h).1
  have hm : 0 ≤ min dt (t1 - t0) := le_min hdt (by linarith)
  have hN : N' = N := by
    rcases lt_trichotomy N' N with hlt | rfl | hlt
    · have := a7 (N' - 1) (by omega) (by omega)
      linarith
    · rfl
    · have := b7 (N - 1) (by omega) (by omega)
      linarith
  subst hN
  have key : ∀ i < N', z i = y i := by
    intro i
    induction i using Nat.strong_induction_on with
    | _ i ih =>
      intro hi
      by_cases hio : i < order.toNat
      · rw [c2 i hio, d2 i hio]
      · rw [c3 i (by omega) (by omega), d3 i (by omega) (by omega), ih (i - 1) (by omega) (by omega)]
        congr 2
        refine Finset.sum_congr rfl fun j _ => ?_
        have h1 : 0 ≤ ((i - 1 : ℕ) : ℝ) * min dt (t1 - t0) := mul_nonneg (Nat.cast_nonneg _) hm
        rw [ih (i - 1 - j) (by omega) (by omega), hag _ _ (by linarith) (a7 (i - 1) (by omega) (by omega))]
  have e1 : out.tVals = out'.tVals := by
    apply List.ext_getElem (by omega)
    intro i h1 h2
    have e1 := a5 i (by omega)
    have e2 := b5 i (by omega)
    rw [List.getElem?_eq_getElem h1] at e1
    rw [List.getElem?_eq_getElem h2] at e2
    rw [Option.some.inj e1, Option.some.inj e2]
  have e2 : out.yVals = out'.yVals := by
    apply List.ext_getElem (by omega)
    intro i h1 h2
    rw [c1 i _ (List.getElem?_eq_getElem h1), d1 i _ (List.getElem?_eq_getElem h2), key i (by omega)]
  cases out
  cases out'
  simp only at a1 b1 e1 e2
  rw [a1, b1, e1, e2]

/-- **C115, the claim.**  What the right-hand side does outside of `[t0, t1]` does not matter to any integrator. -/
def C115_claim : Prop :=
  ∀ (n : ℕ) (fn gn : OdeFun ℝ n) (t0 t1 dt : ℝ), 0 < dt → t0 < t1 → AgreeOn fn gn t0 t1 → ∀ (nd : Bool) (la : LinAlg ℝ) (y0 : Vec ℝ n),
    (∀ (o : ErkOpts ℝ) (oo : OutOpts) (m : ℤ) (fuel : ℕ), erkOdeint nd fn.fn t0 t1 y0 o oo m dt fuel = erkOdeint nd gn.fn t0 t1 y0 o oo m dt fuel) ∧
    (∀ (o : IrkOpts ℝ) (oo : OutOpts) (m : ℤ) (fuel : ℕ), irkOdeint nd la fn t0 t1 y0 o oo m dt fuel = irkOdeint nd la gn t0 t1 y0 o oo m dt fuel) ∧
    ∀ (order : ℤ) (st0 : NewtonStatus ℝ) (fuelB fuel : ℕ),
      adamsBashforth nd la fn t0 t1 y0 order dt st0 fuelB fuel = adamsBashforth nd la gn t0 t1 y0 order dt st0 fuelB fuel ∧
      bdf nd la fn t0 t1 y0 order dt st0 fuelB fuel = bdf nd la gn t0 t1 y0 order dt st0 fuelB fuel

end implicit

/-- `y' = 0` until the time `T`, `y' = v` afterwards -/
noncomputable def lateFun (T v : ℝ) : OdeFun ℝ 1 := ⟨fun t _ _ => if t ≤ T then 0 else v, fun _ _ _ _ => 0⟩

theorem late_returns (v : ℝ) (st0 : NewtonStatus ℝ) : ∃ fuel out, bdf false laReal (lateFun (3 / 2 / 10 ^ 6) v) 0 (3 / 2 / 10 ^ 6) (fun _ => 0) 1
      (1 / 10 ^ 6) st0 2 fuel = some (.ret out) := by
  have hmin : min (1 / 10 ^ 6 : ℝ) (3 / 2 / 10 ^ 6 - 0) = 1 / 10 ^ 6 := min_eq_left (by norm_num)
  obtain ⟨l, hl⟩ := bootstrap_const (n := 1) (by norm_num) (fun _ => 0) (by simp) (dt := 1 / 10 ^ 6) (by norm_num) (le_refl _) 2 0 (fun _ => 0)
  have hl2 : bootstrap false laReal (lateFun (3 / 2 / 10 ^ 6) v) 2 (1 + 1) (fun _ => 0) 0 (min (1 / 10 ^ 6) (3 / 2 / 10 ^ 6 - 0)) = some (.ret l) := by
    rw [hmin, ← hl, one_add_one_eq_two]
    have hag : AgreeOn (lateFun (3 / 2 / 10 ^ 6) v) (constFun fun _ => 0) 0 (1 / 10 ^ 6) := by
      intro t y _ h2
      have : t ≤ 3 / 2 / 10 ^ 6 := h2.trans (by norm_num)
      exact ⟨by simp [lateFun, constFun, this], rfl⟩
    have hT : (0 : ℝ) + ((2 - 1 : ℤ).toNat : ℕ) * (1 / 10 ^ 6) ≤ 1 / 10 ^ 6 := by norm_num
    exact bootstrap_agree (by norm_num) hT hag _
  exact C53_bdf_returns one_pos (by norm_num) (by norm_num) (by norm_num) hl2

theorem late_value {v : ℝ} {st0 : NewtonStatus ℝ} {fuelB fuel : ℕ} {out : MsOutput ℝ 1} (ho : bdf false laReal (lateFun (3 / 2 / 10 ^ 6) v) 0
      (3 / 2 / 10 ^ 6) (fun _ => 0) 1 (1 / 10 ^ 6) st0 fuelB fuel = some (.ret out)) : out.yVals[2]? = some fun _ => v / 10 ^ 6 := by
  have hmin : min (1 / 10 ^ 6 : ℝ) (3 / 2 / 10 ^ 6 - 0) = 1 / 10 ^ 6 := min_eq_left (by norm_num)
  have hz : Matrix.of (fun _ _ => 0 : Mat ℝ 1) = 0 := rfl
  obtain ⟨e1, e2⟩ := C54_affine laReal_exact (M := fun _ _ _ => 0) (g := fun t _ => if t ≤ 3 / 2 / 10 ^ 6 then 0 else v)
    (fun t y => by funext i; simp [lateFun, hz]) (fun _ _ => rfl) (fun t => by rw [hz]; simp) one_pos (by norm_num) ho
  obtain ⟨N, a2, a3, a4, a5, a6, a7⟩ := C53_bdf one_pos (by norm_num) ho
  rw [hmin] at a6
  obtain ⟨y, c1, c2, -⟩ := bdf_values one_pos (by norm_num) ho
  have hN : 3 ≤ N := by
    by_contra hlt
    have : N = 2 := by omega
    have := a6.mp e1
    subst N
    norm_num [‹out.tVals.length = 2›] at this
  have hg : ∀ (i : ℕ), i < N → out.yVals[i]? = some (y i) := fun i hi => by
    have := List.getElem?_eq_getElem (l := out.yVals) (i := i) (by omega)
    rw [this, ← c1 i _ this]
  rw [hg 2 (by omega)]
  obtain ⟨w, g1, g2⟩ := e2 2 (y 2) (by norm_num) (hg 2 (by omega))
  have g3 := g1 0 (by norm_num)
  rw [hg _ (by omega), c2 _ (by norm_num), Option.some.injEq] at g3
  congr 1
  funext p
  have := g2 p
  rw [hmin] at this
  have e : ¬ ((0 : ℝ) + (2 : ℕ) * (1 / 10 ^ 6) ≤ 3 / 2 / 10 ^ 6) := by norm_num
  simp only [Int.toNat_one, Finset.sum_range_one, ← g3, bdfC, bdfRow, bdfW, lateFun, if_neg e] at this
  simp at this
  rw [this]
  ring

/-- **C115 is false**: `bdf` evaluates the right-hand side behind `t1`. -/
theorem C115_refuted : ¬ C115_claim := by
  intro h
  obtain ⟨fuel, out, h1⟩ := late_returns 1 nStat
  have hk := ((h 1 (lateFun (3 / 2 / 10 ^ 6) 1) (lateFun (3 / 2 / 10 ^ 6) 2) 0 (3 / 2 / 10 ^ 6) (1 / 10 ^ 6) (by norm_num) (by norm_num)
    (fun t y _ ht => ⟨by simp [lateFun, ht], rfl⟩) false laReal (fun _ => 0)).2.2 1 nStat 2 fuel).2
  have e1 := late_value h1
  rw [hk] at h1
  rw [late_value h1, Option.some.injEq] at e1
  have := congrFun e1 0
  norm_num at this

/-- right-hand sides that agree on `[0, 1]` and nowhere else -/
example : AgreeOn (lateFun 1 1) (lateFun 1 2) 0 1 ∧ (lateFun 1 1).fn 2 0 ≠ (lateFun 1 2).fn 2 0 := by
  refine ⟨fun t y _ ht => ⟨by simp [lateFun, ht], rfl⟩, fun h => ?_⟩
  have := congrFun h 0
  norm_num [lateFun] at this

/-- `C115_erk`, `C115_irk`, `C115_adams_bashforth`, `C115_bdf_partial` on them -/
example (y0 : Vec ℝ 1) (fuel fuelB : ℕ) :
    erkOdeint false (lateFun 1 1).fn 0 1 y0 ErkOpts.dflt OutOpts.dflt 131 (1 / 10) fuel =
      erkOdeint false (lateFun 1 2).fn 0 1 y0 ErkOpts.dflt OutOpts.dflt 131 (1 / 10) fuel ∧
    irkOdeint false laReal (lateFun 1 1) 0 1 y0 (demoOpts 7) OutOpts.dflt 211 (1 / 10) fuel =
      irkOdeint false laReal (lateFun 1 2) 0 1 y0 (demoOpts 7) OutOpts.dflt 211 (1 / 10) fuel ∧
    adamsBashforth false laReal (lateFun 1 1) 0 1 y0 3 (1 / 10) nStat fuelB fuel =
      adamsBashforth false laReal (lateFun 1 2) 0 1 y0 3 (1 / 10) nStat fuelB fuel ∧
    bdf false laReal (lateFun 1 1) 0 (9 / 10) y0 3 (1 / 10) nStat fuelB fuel =
      bdf false laReal (lateFun 1 2) 0 (9 / 10) y0 3 (1 / 10) nStat fuelB fuel := by
  have hA : AgreeOn (lateFun 1 1) (lateFun 1 2) 0 1 := fun t y _ ht => ⟨by simp [lateFun, ht], rfl⟩
  have m1 : min (1 / 10 : ℝ) (1 - 0) = 1 / 10 := min_eq_left (by norm_num)
  have m2 : min (1 / 10 : ℝ) (9 / 10 - 0) = 1 / 10 := min_eq_left (by norm_num)
  have t2 : (3 - 1 : ℤ).toNat = 2 := rfl
  have t3 : (3 : ℤ).toNat = 3 := rfl
  exact ⟨C115_erk (Or.inl rfl) (fun t y h1 h2 => (hA t y h1 h2).1) _ _ _ _ _, C115_irk (Or.inl rfl) hA _ _ _ _ _,
    C115_adams_bashforth (Or.inl rfl) (le_refl _) (by rw [m1, t2]; norm_num) hA,
    C115_bdf_partial (Or.inl rfl) (by rw [m2]; norm_num) (by rw [m2, t3]; norm_num) hA⟩

/-- `C115_adams_bashforth_output` on a run of order 2 -/
example : ∃ v : ℝ, 0 < v ∧ ∃ fuel out, adamsBashforth false laReal (constFun (n := 1) fun _ => v) 0 (1 / 10 ^ 5) (fun _ => 0) 2
      (1 / 10 ^ 6) nStat 2 fuel = some (.ret out) ∧ ∀ fuel' out', adamsBashforth false laReal
        ⟨fun t y => if t < 1 / 10 ^ 5 then fun _ => v else y, fun _ _ _ _ => 7⟩ 0 (1 / 10 ^ 5) (fun _ => 0) 2
      (1 / 10 ^ 6) nStat 2 fuel' = some (.ret out') → out = out' := by
  obtain ⟨v, hv, h1, -⟩ := ms_example 2 (by norm_num)
  obtain ⟨fuel, out, h⟩ := h1 (by norm_num)
  exact ⟨v, hv, fuel, out, h, fun fuel' out' h' => C115_adams_bashforth_output (by norm_num) (fun t y _ ht => by simp only [constFun]; rw [if_pos ht]) h h'
    (by norm_num) (by norm_num)⟩

end Verif
