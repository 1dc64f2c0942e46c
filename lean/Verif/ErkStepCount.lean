import Verif.ErkConverge

/-!
# Step sizes of the adaptive explicit integrator near a solution: helper lemmas
-/

namespace Verif
open Spec Set
variable {n : ℕ} {nd : Bool} {f : ℝ → Vec ℝ n → Vec ℝ n} {t0 t1 : ℝ} {u : ℝ → Vec ℝ n}
  {o : ErkOpts ℝ} {dt : ℝ} {oo : OutOpts} {m : ℤ} {fuel : ℕ} {out : ErkOutput ℝ n} {q : ℕ}

/-- the step size at which an error `M h^(q+1) / abs_tol` reaches one -/
noncomputable def critStep (q : ℕ) (M atol : ℝ) : ℝ := (atol / M) ^ ((1 : ℝ) / (1 + q))

theorem critStep_pos {M atol : ℝ} (hM : 0 < M) (ha : 0 < atol) : 0 < critStep q M atol := Real.rpow_pos_of_pos (div_pos ha hM) _

theorem critStep_pow {M atol : ℝ} (hM : 0 < M) (ha : 0 < atol) : critStep q M atol ^ (q + 1) = atol / M := by
  unfold critStep
  rw [← Real.rpow_natCast, ← Real.rpow_mul (div_pos ha hM).le]
  have : (1 : ℝ) / (1 + q) * ((q + 1 : ℕ) : ℝ) = 1 := by
    push_cast; rw [div_mul_eq_mul_div, one_mul, add_comm (q : ℝ) 1, div_self (by positivity)]
  rw [this, Real.rpow_one]

/-- the controller after an attempt whose error is at most `M h^(q+1) / abs_tol` -/
theorem newDt_lower {M atol h err : ℝ} (hM : 0 < M) (ha : 0 < atol) (hh : 0 < h) (he : 0 < err) (hq : q ≤ 4)
    (heb : err ≤ max (M * h ^ (q + 1) / atol) machinePrecision) :
    9 / 10 * min (4 * h) (critStep q M atol) ≤ newDt o q h err ∨ (0 < o.maxDt ∧ newDt o q h err = o.maxDt) := by
  have hκ := critStep_pos (q := q) hM ha
  have hp := critStep_pow (q := q) hM ha
  set κ := critStep q M atol with hκdef
  have hs0 : 0 ≤ min 4 (κ / h) := le_min (by norm_num) (by positivity)
  have hpow : (min 4 (κ / h)) ^ (1 + q) ≤ 1 / err := by
    rw [le_div_iff₀ he]
    have hb : (min 4 (κ / h)) ^ (1 + q) ≤ (κ / h) ^ (1 + q) := pow_le_pow_left₀ hs0 (min_le_right _ _) _
    have hb4 : (min 4 (κ / h)) ^ (1 + q) ≤ 4 ^ 5 :=
      (pow_le_pow_left₀ hs0 (min_le_left _ _) _).trans (pow_le_pow_right₀ (by norm_num) (by omega))
    rcases le_max_iff.mp heb with h1 | h1
    · calc (min 4 (κ / h)) ^ (1 + q) * err ≤ (κ / h) ^ (1 + q) * (M * h ^ (q + 1) / atol) :=
            mul_le_mul hb h1 he.le (by positivity)
        _ = 1 := by
          rw [div_pow, add_comm 1 q, hp]
          field_simp
    · have h2 : (machinePrecision : ℝ) ≤ 1 / 4 ^ 5 := by simp only [machinePrecision, lit_real]; norm_num
      calc (min 4 (κ / h)) ^ (1 + q) * err ≤ 4 ^ 5 * (1 / 4 ^ 5) := mul_le_mul hb4 (h1.trans h2) he.le (by norm_num)
        _ = 1 := by norm_num
  have hs : min 4 (κ / h) ≤ (1 / err) ^ ((1 : ℝ) / (1 + q)) := by
    have h2 := Real.rpow_le_rpow (pow_nonneg hs0 _) hpow (expt_bounds q).1.le
    rw [← Real.rpow_natCast, ← Real.rpow_mul hs0] at h2
    have : ((1 + q : ℕ) : ℝ) * ((1 : ℝ) / (1 + q)) = 1 := by push_cast; rw [mul_one_div, div_self (by positivity)]
    rwa [this, Real.rpow_one] at h2
  have key := newDt_ge (o := o) (mo := q) (err := err) hh (min_le_left _ _) hs
  have e : 9 / 10 * h * min 4 (κ / h) = 9 / 10 * min (4 * h) κ := by
    rw [mul_assoc, mul_min_of_nonneg _ _ hh.le, mul_comm h 4, mul_div_cancel₀ _ hh.ne']
  rw [e] at key
  exact key

/-- lower bound of the step sizes chosen by the controller -/
noncomputable def stepFloor (q : ℕ) (M : ℝ) (o : ErkOpts ℝ) (dt : ℝ) : ℝ := min dt (min o.maxDt (9 / 10 * critStep q M o.absTol))

/-- either the step size is at least `L`, or the step ends at `t1` -/
def LongStep (t1 L : ℝ) (s : ErkState ℝ n) : Prop := L ≤ s.dt ∨ t1 ≤ s.t + s.dt

/-- the recorded steps and estimates of an adaptive run near a solution -/
theorem adaptive_steps {p : ℕ} (hp : 1 ≤ p) (hf : ContDiff ℝ p fun q : ℝ × (Fin n → ℝ) => f q.1 q.2) (h01 : t0 < t1)
    (hu : ∀ t ∈ Icc t0 t1, HasDerivWithinAt u (f t (u t)) (Icc t0 t1) t) (hm : m ∈ erkImplemented)
    (ho : HasOrder (fun i j : Fin (erkCoeffs m : SolverCoeffs ℝ).ns => (erkCoeffs m : SolverCoeffs ℝ).a i j)
      (fun i => (erkCoeffs m : SolverCoeffs ℝ).bw i) p)
    (ho2 : HasOrder (fun i j : Fin (erkCoeffs m : SolverCoeffs ℝ).ns => (erkCoeffs m : SolverCoeffs ℝ).a i j)
      (fun i => (erkCoeffs m : SolverCoeffs ℝ).bw2 i) q) (hqp : q ≤ p) (hb2 : (erkCoeffs m : SolverCoeffs ℝ).b2 ≠ [])
    (hmo : minOrder (erkCoeffs m : SolverCoeffs ℝ) = some q) (hq4 : q ≤ 4) :
    ∃ M h0 : ℝ, 0 < M ∧ 0 < h0 ∧ ∀ (nd : Bool) (o : ErkOpts ℝ) (oo : OutOpts) (dt : ℝ) (fuel : ℕ) (out : ErkOutput ℝ n),
      o.adaptive = true → 0 < o.absTol → 0 ≤ o.relTol → 0 < o.maxDt → o.maxDt ≤ h0 → 0 < dt → dt ≤ o.maxDt →
      erkOdeint nd f t0 t1 (u t0) o oo m dt fuel = some (.ret out) → ∀ (i : ℕ) (t t' : ℝ), out.tVals[i]? = some t →
      out.tVals[i + 1]? = some t' →
      (stepFloor q M o dt ≤ t' - t ∨ t' = t1) ∧ ∃ ee, out.errEst[i + 1]? = some ee ∧ ‖ee‖ ≤ M * (t' - t) ^ (q + 1) := by
  obtain ⟨hex, hfs, -⟩ := shipped_facts hm
  obtain ⟨M0, h0, hM0, hh0, key⟩ := tube hp hf h01 hu hm ho ho2 hqp hb2
  set M := max M0 1 with hMdef
  have hM : 0 < M := lt_max_of_lt_right one_pos
  refine ⟨M, h0, hM, hh0, ?_⟩
  intro nd o oo dt fuel out had ha hr hmx hle hdt hdle hrun i t t' ht ht'
  obtain ⟨Λ, B, k1, k2, k3⟩ := key nd o oo had hmx hle
  obtain ⟨f1, f2, f3, -⟩ := effOpts_fields o (erkCoeffs m : SolverCoeffs ℝ)
  have hadE : (effOpts o (erkCoeffs m : SolverCoeffs ℝ)).adaptive = true :=
    effOpts_adaptive.mpr ⟨had, by simpa using hb2⟩
  set L := stepFloor q M o dt with hL
  have hκ := critStep_pos (q := q) hM ha
  have hLpos : 0 < L := lt_min hdt (lt_min hmx (by positivity))
  have hLmax : L ≤ o.maxDt := (min_le_right _ _).trans (min_le_left _ _)
  have hLκ : L ≤ 9 / 10 * critStep q M o.absTol := (min_le_right _ _).trans (min_le_right _ _)
  -- facts about one attempt
  have hat : ∀ s, TimeInv t0 t1 s → FsalInv f (erkCoeffs m) s → InTube u t0 Λ B o.maxDt s → s.t < t1 →
      let a := attemptAt f t1 (effOpts o (erkCoeffs m)) (erkCoeffs m) q s
      ‖a.errEst‖ ≤ M * a.dt ^ (q + 1) ∧
        (9 / 10 * min (4 * a.dt) (critStep q M o.absTol) ≤ a.newDt ∨ a.newDt = o.maxDt) ∧
        (a.reject = true → critStep q M o.absTol ≤ a.dt) := by
    intro s hT hF hq hlt a
    obtain ⟨e1, e2, e3, e4, e5⟩ := attempt_adaptive (f := f) (t1 := t1) (sc := erkCoeffs m) (mo := q) hadE s
    have hd := attempt_dt (f := f) (t1 := t1) (o := effOpts o (erkCoeffs m)) (sc := erkCoeffs m) (mo := q) s
    obtain ⟨c1, -, -⟩ := clip_facts hT hlt
    rw [← hd] at c1
    change 0 < a.dt at c1
    change a.err = _ at e1
    change a.newDt = _ at e2
    change a.reject = _ at e3
    change a.errTot = _ at e4
    change a.errEst = _ at e5
    have hee : a.errEst = a.dt • ∑ i : Fin (erkCoeffs m : SolverCoeffs ℝ).ns,
        ((erkCoeffs m : SolverCoeffs ℝ).bw2 i - (erkCoeffs m : SolverCoeffs ℝ).bw i) • a.Ks i := by
      rw [e5]
      funext k
      simp only [combine_real, Pi.smul_apply, Finset.sum_apply, smul_eq_mul]
      rw [← Finset.sum_sub_distrib, Fin.sum_univ_eq_sum_range
        (fun j => ((erkCoeffs m : SolverCoeffs ℝ).bw2 j - (erkCoeffs m : SolverCoeffs ℝ).bw j) * a.Ks j k)
        (erkCoeffs m : SolverCoeffs ℝ).ns]
      congr 1
      apply Finset.sum_congr rfl; intros; ring
    have hbound : ‖a.errEst‖ ≤ M * a.dt ^ (q + 1) := by
      rw [hee]
      exact ((k3 q s hT hF hq hlt).2).trans (mul_le_mul_of_nonneg_right (le_max_left _ _) (pow_nonneg c1.le _))
    refine ⟨hbound, ?_⟩
    have herr : a.err ≤ max (M * a.dt ^ (q + 1) / o.absTol) machinePrecision := by
      rw [e1, e4, errNorm_wrms]
      apply max_le_max _ le_rfl
      have := wrms_le (atol := (effOpts o (erkCoeffs m : SolverCoeffs ℝ)).absTol) (rtol := (effOpts o (erkCoeffs m : SolverCoeffs ℝ)).relTol)
        (by rw [f1]; exact ha) (by rw [f2]; exact hr) s.y a.yn a.errEst (E := M * a.dt ^ (q + 1)) (by positivity)
        (fun k => (norm_le_pi_norm a.errEst k).trans hbound)
      rwa [f1] at this ⊢
    have hepos : 0 < a.err := by
      rw [e1, e4, errNorm_wrms]
      apply lt_max_of_lt_right
      simp only [machinePrecision, lit_real]; norm_num
    refine ⟨?_, ?_⟩
    · rcases newDt_lower (o := effOpts o (erkCoeffs m : SolverCoeffs ℝ)) hM ha c1 hepos hq4 herr with h | h
      · left; rw [e2]; exact h
      · right; rw [e2, h.2, f3]
    · intro hrej
      have h1 : (1 : ℝ) ≤ a.err := by rw [e3] at hrej; simpa using hrej
      have h2 : (1 : ℝ) ≤ M * a.dt ^ (q + 1) / o.absTol := by
        rcases le_max_iff.mp (h1.trans herr) with h | h
        · exact h
        · simp only [machinePrecision, lit_real] at h; norm_num at h
      rw [le_div_iff₀ ha, one_mul] at h2
      by_contra hcon
      have h3 := pow_lt_pow_left₀ (not_le.mp hcon) c1.le (Nat.succ_ne_zero q)
      rw [Nat.succ_eq_add_one, critStep_pow hM ha, lt_div_iff₀ hM] at h3
      linarith
  obtain ⟨recs, s, hc, hch, -⟩ := erk_chain_order
    (J := fun s => FsalInv f (erkCoeffs m) s ∧ InTube u t0 Λ B o.maxDt s ∧ LongStep t1 L s)
    (Rel := fun t _ b => (L ≤ b.t - t ∨ b.t = t1) ∧ ‖b.errEst‖ ≤ M * (b.t - t) ^ (q + 1))
    (erkOdeint_ret hrun).2 (Or.inr ⟨hdt, h01⟩)
    (fun d hd h1 h2 => by
      refine ⟨fsalInv_init, k1 d (h2.trans hdle), ?_⟩
      obtain ⟨i1, i2, -⟩ := erkInit_fields (f := f) (t0 := t0) (y0 := u t0) (sc := erkCoeffs m) d
      unfold LongStep
      rw [i1, i2]
      rw [clipDt_real] at hd
      rcases min_choice dt (t1 - t0) with h | h
      · left; rw [hd, h]; exact min_le_left _ _
      · right; rw [hd, h]; linarith)
    (fun mo s s' hmo' hT hJ hb => by
      rw [hmo] at hmo'
      obtain rfl := Option.some.inj hmo'
      refine ⟨fsalInv_next hfs hex hJ.1 hb, k2 _ _ _ hT hJ.1 hJ.2.1 hb, ?_⟩
      have hT' := timeInv_next hT hb
      have hcase := bodyCase nd f t1 (effOpts o (erkCoeffs m)) oo (erkCoeffs m) q s
      rw [hb] at hcase
      cases hcase with
      | accepted h hm' hb2' a hA hE hr' =>
        have hlt : s.t < t1 := by simpa using h
        obtain ⟨-, hn, -⟩ := hat s hT hJ.1 hJ.2.1 hlt
        obtain ⟨c1, c2, c3⟩ := clip_facts hT hlt
        have hd := attempt_dt (f := f) (t1 := t1) (o := effOpts o (erkCoeffs m)) (sc := erkCoeffs m) (mo := q) s
        rw [← hd, ← hA] at c1 c2 c3
        rw [← hA] at hn hd
        by_cases hL' : L ≤ a.dt
        · left
          change L ≤ a.newDt
          rcases hn with hn | hn
          · refine le_trans ?_ hn
            rw [mul_min_of_nonneg _ _ (by norm_num)]
            apply le_min _ hLκ
            linarith
          · rw [hn]; exact hLmax
        · right
          change t1 ≤ s.t + a.dt + a.newDt
          have hpos : 0 < a.newDt := hT'.dt
          have : t1 ≤ s.t + a.dt := by
            rw [clipDt_real] at hd
            rcases hJ.2.2 with h1 | h1
            · rcases min_choice s.dt (t1 - s.t) with h2 | h2
              · rw [h2] at hd; rw [hd] at hL'; exact absurd h1 hL'
              · rw [h2] at hd; linarith
            · rw [min_eq_right (by linarith)] at hd; linarith
          linarith
      | rejected h hm' hb2' a hA hE had' hr' =>
        left
        have hlt : s.t < t1 := by simpa using h
        obtain ⟨-, hn, hrj⟩ := hat s hT hJ.1 hJ.2.1 hlt
        rw [← hA] at hn hrj
        change L ≤ a.newDt
        rcases hn with hn | hn
        · have h1 := hrj hr'
          refine le_trans ?_ hn
          rw [min_eq_right (by linarith)]
          exact hLκ
        · rw [hn]; exact hLmax)
    (fun mo s hmo' hJ hT hlt hr' => by
      rw [hmo] at hmo'
      obtain rfl := Option.some.inj hmo'
      obtain ⟨hest, -⟩ := hat s hT hJ.1 hJ.2.1 hlt
      have hd := attempt_dt (f := f) (t1 := t1) (o := effOpts o (erkCoeffs m)) (sc := erkCoeffs m) (mo := q) s
      simp only [newSample, add_sub_cancel_left]
      refine ⟨?_, hest⟩
      rw [clipDt_real] at hd
      rw [hd]
      rcases hJ.2.2 with h1 | h1
      · rcases min_choice s.dt (t1 - s.t) with h2 | h2
        · left; rw [h2]; exact h1
        · right; rw [h2]; ring
      · right; rw [min_eq_right (by linarith)]; ring)
  obtain ⟨b, y, -, ⟨r1, r2⟩, rfl, -, -, h5, -⟩ := chain_at
    (Rel := fun t _ b => (L ≤ b.t - t ∨ b.t = t1) ∧ ‖b.errEst‖ ≤ M * (b.t - t) ^ (q + 1)) hc hch ht ht'
  exact ⟨r1, b.errEst, h5, r2⟩

/-- an increasing list in `[a, b]` whose gaps are at least `L`, except for one ending at `b`, has at most `(b-a)/L + 2` entries -/
theorem length_of_gaps {ts : List ℝ} {a b L : ℝ} (hL : 0 < L) (hmono : ts.Pairwise (· < ·)) (hr : ∀ t ∈ ts, a ≤ t ∧ t ≤ b)
    (hg : ∀ (i : ℕ) (t t' : ℝ), ts[i]? = some t → ts[i + 1]? = some t' → L ≤ t' - t ∨ t' = b) (hab : a ≤ b) :
    (ts.length : ℝ) ≤ (b - a) / L + 2 := by
  have key : ∀ i (hi : i + 1 < ts.length), a + i * L ≤ ts[i]'(by omega) := by
    intro i
    induction i with
    | zero => intro hi; simpa using (hr _ (List.getElem_mem (by omega : 0 < ts.length))).1
    | succ i ih =>
      intro hi
      have h1 := ih (by omega)
      rcases hg i _ _ (List.getElem?_eq_getElem (by omega)) (List.getElem?_eq_getElem (by omega : i + 1 < ts.length)) with h | h
      · push_cast; linarith
      · have h2 := List.pairwise_iff_getElem.mp hmono (i + 1) (i + 2) (by omega) hi (by omega)
        have h3 := (hr _ (List.getElem_mem hi)).2
        linarith
  have hq : 0 ≤ (b - a) / L := div_nonneg (by linarith) hL.le
  rcases Nat.lt_or_ge ts.length 3 with h | h
  · have : (ts.length : ℝ) ≤ 2 := by exact_mod_cast (by omega : ts.length ≤ 2)
    linarith
  · have h1 := key (ts.length - 2) (by omega)
    have h2 := (hr _ (List.getElem_mem (by omega : ts.length - 2 < ts.length))).2
    have h3 : ((ts.length - 2 : ℕ) : ℝ) * L ≤ b - a := by linarith
    rw [← le_div_iff₀ hL] at h3
    rw [Nat.cast_sub (by omega)] at h3
    push_cast at h3
    linarith

end Verif
