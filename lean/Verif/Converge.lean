import Verif.ButcherExact

/-!
# Convergence of one-step methods: stability of the stages, error propagation, global error
-/

namespace Verif
open Spec Asymptotics Filter Set

variable {E : Type} [NormedAddCommGroup E] [NormedSpace ℝ E] {f : E → E} {s : ℕ}

/-- sum of the absolute values of the coefficients -/
noncomputable def absSum (A : Fin s → Fin s → ℝ) : ℝ := ∑ i, ∑ j, |A i j|

theorem absSum_nonneg (A : Fin s → Fin s → ℝ) : 0 ≤ absSum A :=
  Finset.sum_nonneg fun _ _ => Finset.sum_nonneg fun _ _ => abs_nonneg _

theorem row_le (A : Fin s → Fin s → ℝ) (i : Fin s) {v : Fin s → E} {B : ℝ} (hB : 0 ≤ B)
    (hv : ∀ j, A i j ≠ 0 → ‖v j‖ ≤ B) : ‖∑ j, A i j • v j‖ ≤ absSum A * B := by
  calc ‖∑ j, A i j • v j‖ ≤ ∑ j, |A i j| * B := by
        refine (norm_sum_le _ _).trans (Finset.sum_le_sum fun j _ => ?_)
        rw [norm_smul, Real.norm_eq_abs]
        by_cases h : A i j = 0
        · simp [h]
        · exact mul_le_mul_of_nonneg_left (hv j h) (abs_nonneg _)
    _ = (∑ j, |A i j|) * B := (Finset.sum_mul _ _ _).symm
    _ ≤ absSum A * B := by
        apply mul_le_mul_of_nonneg_right _ hB
        exact Finset.single_le_sum (f := fun i => ∑ j, |A i j|) (fun i _ => Finset.sum_nonneg fun _ _ => abs_nonneg _) (Finset.mem_univ i)

theorem wsum_le (b : Fin s → ℝ) {v : Fin s → E} {B : ℝ} (hv : ∀ j, ‖v j‖ ≤ B) :
    ‖∑ j, b j • v j‖ ≤ (∑ j, |b j|) * B := by
  rw [Finset.sum_mul]
  refine (norm_sum_le _ _).trans (Finset.sum_le_sum fun j _ => ?_)
  rw [norm_smul, Real.norm_eq_abs]
  exact mul_le_mul_of_nonneg_left (hv j) (abs_nonneg _)

/-! ### explicit stages exist and are bounded -/

/-- the stages of an explicit method exist -/
theorem explicit_stages_exist {A : Fin s → Fin s → ℝ} (hA : ∀ i j, i ≤ j → A i j = 0) (f : E → E) (y : E) (h : ℝ) :
    ∃ K : Fin s → E, ∀ i, K i = f (y + h • ∑ j, A i j • K j) := by
  let Φ : (Fin s → E) → Fin s → E := fun K i => f (y + h • ∑ j, A i j • K j)
  have key : ∀ n : ℕ, ∀ i : Fin s, i.val < n → Φ (Φ^[n] 0) i = (Φ^[n] 0) i := by
    intro n
    induction n with
    | zero => intro i hi; omega
    | succ n ih =>
      intro i hi
      rw [Function.iterate_succ_apply']
      change f _ = f _
      congr 3
      apply Finset.sum_congr rfl
      intro j _
      by_cases hij : i ≤ j
      · rw [hA i j hij, zero_smul, zero_smul]
      · rw [ih j (by have : j.val < i.val := not_le.mp hij; omega)]
  exact ⟨Φ^[s] 0, fun i => (key s i i.isLt).symm⟩

/-- explicit stages from a point of a ball of radius `R` stay bounded if the step is small -/
theorem explicit_stages_le {A : Fin s → Fin s → ℝ} (hA : ∀ i j, i ≤ j → A i j = 0) {R M h : ℝ} {y : E} {K : Fin s → E}
    (hf : ∀ z, ‖z‖ ≤ R + 1 → ‖f z‖ ≤ M) (hy : ‖y‖ ≤ R) (hh : 0 ≤ h) (hM : 0 ≤ M) (hsm : h * (absSum A * M) ≤ 1)
    (hK : ∀ i, K i = f (y + h • ∑ j, A i j • K j)) (i : Fin s) : ‖y + h • ∑ j, A i j • K j‖ ≤ R + 1 ∧ ‖K i‖ ≤ M := by
  have key : ∀ n : ℕ, ∀ i : Fin s, i.val < n → ‖y + h • ∑ j, A i j • K j‖ ≤ R + 1 ∧ ‖K i‖ ≤ M := by
    intro n
    induction n with
    | zero => intro i hi; omega
    | succ n ih =>
      intro i hi
      have h1 : ‖y + h • ∑ j, A i j • K j‖ ≤ R + 1 := by
        refine (norm_add_le _ _).trans (add_le_add hy ?_)
        rw [norm_smul, Real.norm_of_nonneg hh]
        refine (mul_le_mul_of_nonneg_left (row_le A i hM fun j hj => ?_) hh).trans hsm
        have hij : ¬ i ≤ j := fun h => hj (hA i j h)
        exact (ih j (by have : j.val < i.val := not_le.mp hij; omega)).2
      exact ⟨h1, by rw [hK i]; exact hf _ h1⟩
  exact key s i i.isLt

/-- stages depend on the initial value in a Lipschitz way; a residual enters once -/
theorem stages_diff {A : Fin s → Fin s → ℝ} {S : Set E} {L δ h : ℝ} {y y' : E} {K K' : Fin s → E}
    (hL : 0 ≤ L) (hLip : ∀ z ∈ S, ∀ w ∈ S, ‖f z - f w‖ ≤ L * ‖z - w‖) (hh : 0 ≤ h) (hδ : 0 ≤ δ) (hsm : h * (absSum A * L) ≤ 1 / 2)
    (hS : ∀ i, y + h • ∑ j, A i j • K j ∈ S) (hS' : ∀ i, y' + h • ∑ j, A i j • K' j ∈ S)
    (hK : ∀ i, ‖K i - f (y + h • ∑ j, A i j • K j)‖ ≤ δ) (hK' : ∀ i, K' i = f (y' + h • ∑ j, A i j • K' j)) (i : Fin s) :
    ‖K i - K' i‖ ≤ 2 * (L * ‖y - y'‖ + δ) := by
  have hα := absSum_nonneg A
  set D := ‖K - K'‖ with hD
  have hDn : 0 ≤ D := norm_nonneg _
  have hj : ∀ j, ‖K j - K' j‖ ≤ D := fun j => norm_le_pi_norm (K - K') j
  have hi : ∀ i, ‖K i - K' i‖ ≤ L * ‖y - y'‖ + δ + 1 / 2 * D := by
    intro i
    have e : K i - K' i = (K i - f (y + h • ∑ j, A i j • K j)) +
        (f (y + h • ∑ j, A i j • K j) - f (y' + h • ∑ j, A i j • K' j)) := by
      rw [hK' i]; simp only [← hK' i]; abel
    have e2 : y + h • ∑ j, A i j • K j - (y' + h • ∑ j, A i j • K' j) = (y - y') + h • ∑ j, A i j • (K j - K' j) := by
      simp only [smul_sub, Finset.sum_sub_distrib]; abel
    have h3 : ‖h • ∑ j, A i j • (K j - K' j)‖ ≤ h * (absSum A * D) := by
      rw [norm_smul, Real.norm_of_nonneg hh]
      exact mul_le_mul_of_nonneg_left (row_le A i hDn fun j _ => hj j) hh
    rw [e]
    refine (norm_add_le _ _).trans ?_
    have h1 := hLip _ (hS i) _ (hS' i)
    rw [e2] at h1
    have h2 := norm_add_le (y - y') (h • ∑ j, A i j • (K j - K' j))
    have h4 : L * ‖(y - y') + h • ∑ j, A i j • (K j - K' j)‖ ≤ L * ‖y - y'‖ + 1 / 2 * D := by
      calc L * ‖(y - y') + h • ∑ j, A i j • (K j - K' j)‖ ≤ L * (‖y - y'‖ + h * (absSum A * D)) :=
            mul_le_mul_of_nonneg_left (h2.trans (by linarith)) hL
        _ = L * ‖y - y'‖ + (h * (absSum A * L)) * D := by ring
        _ ≤ _ := by linarith [mul_le_mul_of_nonneg_right hsm hDn]
    linarith [hK i]
  have hDle : D ≤ L * ‖y - y'‖ + δ + 1 / 2 * D := by
    rw [hD, pi_norm_le_iff_of_nonneg (by positivity)]
    exact fun i => hi i
  exact (hj i).trans (by linarith)

/-! ### error propagation -/

/-- **discrete Gronwall inequality** for a chain of steps: if one step of length `h` turns an error `e` into at most
`(1 + Λ h) e + C h η` as long as the error is at most one, then the error after the time `T` is at most `e^{ΛT} (e₀ + T C η)`, provided this
is at most one. -/
theorem chain_error {Λ C η e0 t0 t1 : ℝ} (hΛ : 0 ≤ Λ) (hC : 0 ≤ C) (hη : 0 ≤ η) (he0 : 0 ≤ e0) {ts es : List ℝ}
    (hlen : ts.length = es.length) (hmono : ∀ (i : ℕ) (t t' : ℝ), ts[i]? = some t → ts[i + 1]? = some t' → t ≤ t')
    (hrange : ∀ t ∈ ts, t0 ≤ t ∧ t ≤ t1) (hhead : ts.head? = some t0) (he : ∀ e, es.head? = some e → e ≤ e0)
    (hsmall : Real.exp (Λ * (t1 - t0)) * (e0 + (t1 - t0) * (C * η)) ≤ 1)
    (hstep : ∀ (i : ℕ) (t t' e e' : ℝ), ts[i]? = some t → ts[i + 1]? = some t' → es[i]? = some e → es[i + 1]? = some e' →
      e ≤ 1 → e' ≤ (1 + Λ * (t' - t)) * e + C * (t' - t) * η) :
    ∀ (i : ℕ) (t e : ℝ), ts[i]? = some t → es[i]? = some e → e ≤ Real.exp (Λ * (t - t0)) * (e0 + (t - t0) * (C * η)) := by
  have hCη : 0 ≤ C * η := mul_nonneg hC hη
  intro i
  induction i with
  | zero =>
    intro t e ht hee
    have h1 : t = t0 := by rw [List.head?_eq_getElem?] at hhead; rw [hhead] at ht; exact (Option.some.inj ht).symm
    have h2 := he e (by rw [List.head?_eq_getElem?]; exact hee)
    simp [h1, h2]
  | succ i ih =>
    intro t' e' ht' he'
    have hi : i + 1 < ts.length := (List.getElem?_eq_some_iff.mp ht').1
    have ht : ts[i]? = some ts[i] := List.getElem?_eq_getElem (by omega)
    have hee : es[i]? = some es[i] := List.getElem?_eq_getElem (by omega)
    generalize ts[i] = t at ht
    generalize es[i] = e at hee
    have hle := hmono i t t' ht ht'
    obtain ⟨r1, r2⟩ := hrange t (List.mem_of_getElem? ht)
    have hind := ih t e ht hee
    have hx : 0 ≤ t - t0 := by linarith
    have hexp : Real.exp (Λ * (t - t0)) ≤ Real.exp (Λ * (t1 - t0)) :=
      Real.exp_le_exp.mpr (mul_le_mul_of_nonneg_left (by linarith) hΛ)
    have hone : e ≤ 1 := by
      refine hind.trans (le_trans ?_ hsmall)
      apply mul_le_mul hexp _ (by positivity) (Real.exp_pos _).le
      have := mul_le_mul_of_nonneg_right (show t - t0 ≤ t1 - t0 by linarith) hCη
      linarith
    have hs := hstep i t t' e e' ht ht' hee he' hone
    set d := t' - t with hd
    have hd0 : 0 ≤ d := by linarith
    have h1d : 1 + Λ * d ≤ Real.exp (Λ * d) := by
      have := Real.add_one_le_exp (Λ * d); linarith
    have hep : 0 < Real.exp (Λ * (t - t0)) := Real.exp_pos _
    have hbig : 0 ≤ Real.exp (Λ * (t - t0)) * (e0 + (t - t0) * (C * η)) := by positivity
    have hee2 : Real.exp (Λ * (t' - t0)) = Real.exp (Λ * d) * Real.exp (Λ * (t - t0)) := by
      rw [← Real.exp_add]; congr 1; rw [hd]; ring
    have hge1 : 1 ≤ Real.exp (Λ * (t' - t0)) := Real.one_le_exp (mul_nonneg hΛ (by linarith))
    have hpos : 0 ≤ 1 + Λ * d := by positivity
    calc e' ≤ (1 + Λ * d) * e + C * d * η := hs
      _ ≤ (1 + Λ * d) * (Real.exp (Λ * (t - t0)) * (e0 + (t - t0) * (C * η))) + C * d * η := by
          linarith [mul_le_mul_of_nonneg_left hind hpos]
      _ ≤ Real.exp (Λ * d) * (Real.exp (Λ * (t - t0)) * (e0 + (t - t0) * (C * η))) + Real.exp (Λ * (t' - t0)) * (C * d * η) := by
          apply add_le_add (mul_le_mul_of_nonneg_right h1d hbig)
          have : 0 ≤ C * d * η := by positivity
          exact le_mul_of_one_le_left this hge1
      _ = Real.exp (Λ * (t' - t0)) * (e0 + (t' - t0) * (C * η)) := by
          rw [hee2, hd]; ring

omit [NormedSpace ℝ E] in
/-- the same for a chain of vectors and a reference curve -/
theorem chain_converges {Λ C η t0 t1 : ℝ} {u : ℝ → E} (hΛ : 0 ≤ Λ) (hC : 0 ≤ C) (hη : 0 ≤ η) {ts : List ℝ} {ys : List E}
    (hlen : ts.length = ys.length) (hth : ts.head? = some t0) (hyh : ys.head? = some (u t0)) (hrange : ∀ t ∈ ts, t0 ≤ t ∧ t ≤ t1)
    (hsmall : Real.exp (Λ * (t1 - t0)) * ((t1 - t0) * C) * η ≤ 1)
    (hstep : ∀ (i : ℕ) (t t' : ℝ), ts[i]? = some t → ts[i + 1]? = some t' → t ≤ t' ∧
      ∃ y y', ys[i]? = some y ∧ ys[i + 1]? = some y' ∧
        (‖y - u t‖ ≤ 1 → ‖y' - u t'‖ ≤ (1 + Λ * (t' - t)) * ‖y - u t‖ + C * (t' - t) * η)) :
    ∀ (i : ℕ) (t : ℝ) (y : E), ts[i]? = some t → ys[i]? = some y →
      ‖y - u t‖ ≤ Real.exp (Λ * (t1 - t0)) * ((t1 - t0) * C) * η := by
  intro i t y ht hy
  let es : List ℝ := List.zipWith (fun t y => ‖y - u t‖) ts ys
  have hes : ∀ (i : ℕ) t y, ts[i]? = some t → ys[i]? = some y → es[i]? = some ‖y - u t‖ := by
    intro i t y h1 h2
    simp only [es, List.getElem?_zipWith, h1, h2]
  have hget : ∀ (i : ℕ) t e, ts[i]? = some t → es[i]? = some e → ∃ y, ys[i]? = some y ∧ e = ‖y - u t‖ := by
    intro i t e h1 h2
    have hi : i < ys.length := by rw [← hlen]; exact (List.getElem?_eq_some_iff.mp h1).1
    have h3 : ys[i]? = some ys[i] := List.getElem?_eq_getElem hi
    have h4 := hes i t _ h1 h3
    rw [h2] at h4
    exact ⟨_, h3, Option.some.inj h4⟩
  have key := chain_error (Λ := Λ) (C := C) (η := η) (e0 := 0) (t0 := t0) (t1 := t1) (ts := ts) (es := es) hΛ hC hη
    le_rfl (by simp [es, hlen]) (fun i t t' h1 h2 => (hstep i t t' h1 h2).1) hrange hth
    (fun e he => by
      rw [List.head?_eq_getElem?] at he hth hyh
      obtain ⟨y, h1, rfl⟩ := hget 0 t0 e hth he
      rw [hyh] at h1
      rw [← Option.some.inj h1, sub_self, norm_zero])
    (le_of_eq_of_le (by ring) hsmall)
    (fun i t t' e e' ht ht' he he' hone => by
      obtain ⟨-, y, y', hy, hy', hst⟩ := hstep i t t' ht ht'
      rw [hes i t y ht hy] at he
      rw [hes (i + 1) t' y' ht' hy'] at he'
      obtain rfl := Option.some.inj he
      obtain rfl := Option.some.inj he'
      exact hst hone)
    i t _ ht (hes i t y ht hy)
  obtain ⟨r1, r2⟩ := hrange t (List.mem_of_getElem? ht)
  refine key.trans ?_
  rw [zero_add, mul_assoc, mul_assoc]
  apply mul_le_mul (Real.exp_le_exp.mpr (mul_le_mul_of_nonneg_left (by linarith) hΛ)) _ (by
    apply mul_nonneg (by linarith); positivity) (Real.exp_pos _).le
  apply mul_le_mul_of_nonneg_right (by linarith); positivity

variable [FiniteDimensional ℝ E]

theorem lipschitz_ball {n : ℕ} (hn : 1 ≤ n) (hf : ContDiff ℝ n f) (R : ℝ) :
    ∃ L, 0 ≤ L ∧ ∀ z ∈ Metric.closedBall (0 : E) R, ∀ w ∈ Metric.closedBall (0 : E) R, ‖f z - f w‖ ≤ L * ‖z - w‖ := by
  obtain ⟨L, hL, hb⟩ := bounded_deriv hf hn R
  refine ⟨L, hL, fun z hz w hw => ?_⟩
  have hd : ∀ x ∈ Metric.closedBall (0 : E) R, DifferentiableAt ℝ f x := fun x _ =>
    (hf.differentiable (by exact_mod_cast (by omega : n ≠ 0))).differentiableAt
  exact (convex_closedBall (0 : E) R).norm_image_sub_le_of_norm_fderiv_le hd
    (fun x hx => by rw [← norm_iteratedFDeriv_one]; exact hb x (by simpa using hx)) hw hz

/-- one step of an explicit method of order `p` near the exact solution -/
theorem explicit_step_error {p : ℕ} (hp : 1 ≤ p) (hf : ContDiff ℝ p f) {u : ℝ → E} {t0 t1 : ℝ}
    (hu : ∀ t ∈ Icc t0 t1, HasDerivWithinAt u (f (u t)) (Icc t0 t1) t) {A : Fin s → Fin s → ℝ} {b : Fin s → ℝ} (ho : HasOrder A b p)
    (hA : ∀ i j, i ≤ j → A i j = 0) :
    ∃ Λ C M h0 : ℝ, 0 ≤ Λ ∧ 0 ≤ C ∧ 0 ≤ M ∧ 0 < h0 ∧ ∀ (t h : ℝ) (y : E) (K : Fin s → E), t0 ≤ t → 0 ≤ h → h ≤ h0 → t + h ≤ t1 →
      ‖y - u t‖ ≤ 1 → (∀ i, K i = f (y + h • ∑ j, A i j • K j)) →
      ‖y + h • (∑ i, b i • K i) - u (t + h)‖ ≤ (1 + Λ * h) * ‖y - u t‖ + C * h ^ (p + 1) ∧ ∀ i, ‖K i‖ ≤ M := by
  have hcu : ContinuousOn u (Icc t0 t1) := fun t ht => (hu t ht).continuousWithinAt
  obtain ⟨R, hR, hub⟩ := solution_bounded hcu
  obtain ⟨M, hM, hfb⟩ := bounded_deriv hf (Nat.zero_le p) (R + 1 + 1)
  have hfb : ∀ z, ‖z‖ ≤ R + 1 + 1 → ‖f z‖ ≤ M := fun z hz => by simpa using hfb z hz
  obtain ⟨L, hL, hLip⟩ := lipschitz_ball hp hf (R + 1 + 1)
  have hα := absSum_nonneg A
  set β := ∑ i, |b i| with hβ
  have hβ0 : 0 ≤ β := Finset.sum_nonneg fun _ _ => abs_nonneg _
  -- admissible step sizes
  have hq : 0 < 2 * (absSum A * (M + L) + 1) := by positivity
  set h0 := 1 / (2 * (absSum A * (M + L) + 1)) with hh0
  have h0pos : 0 < h0 := by positivity
  have hsm : ∀ h, 0 ≤ h → h ≤ h0 → h ≤ 1 ∧ h * (absSum A * M) ≤ 1 ∧ h * (absSum A * L) ≤ 1 / 2 := by
    intro h h1 h2
    rw [hh0, le_div_iff₀ hq] at h2
    have e1 : 0 ≤ h * (absSum A * M) := by positivity
    have e2 : 0 ≤ h * (absSum A * L) := by positivity
    refine ⟨?_, ?_, ?_⟩ <;> nlinarith
  -- local errors
  let X := {x : ℝ × ℝ × (Fin s → E) // (t0 ≤ x.1 ∧ 0 ≤ x.2.1 ∧ x.2.1 ≤ h0 ∧ x.1 + x.2.1 ≤ t1) ∧
    ∀ i, x.2.2 i = f (u x.1 + x.2.1 • ∑ j, A i j • x.2.2 j)}
  have hmem : ∀ x : X, x.1.1 ∈ Icc t0 t1 := fun x => ⟨x.2.1.1, by linarith [x.2.1.2.1, x.2.1.2.2.2]⟩
  have hKb : ∀ (x : X) i, ‖x.1.2.2 i‖ ≤ M := fun x i =>
    (explicit_stages_le hA (R := R + 1) (y := u x.1.1) hfb ((hub _ (hmem x)).trans (by linarith)) x.2.1.2.1 hM
      (hsm _ x.2.1.2.1 x.2.1.2.2.1).2.1 x.2.2 i).2
  have hle := local_error hf hu ho (X := X) (l := ⊤) (t := fun x => x.1.1) (h := fun x => x.1.2.1) (K := fun x => x.1.2.2)
    (Eventually.of_forall fun x => ⟨x.2.1.1, x.2.1.2.1, (hsm _ x.2.1.2.1 x.2.1.2.2.1).1, x.2.1.2.2.2⟩)
    (fun i => isBigO_one_of_bound (R := M) (Eventually.of_forall fun x => hKb x i)) (Eventually.of_forall fun x => x.2.2)
  rw [isBigO_top] at hle
  obtain ⟨C, hC⟩ := hle
  refine ⟨β * (2 * L), max C 0, M, h0, by positivity, le_max_right _ _, hM, h0pos, ?_⟩
  intro t h y K ht hh hle hth hy hK
  obtain ⟨s1, s2, s3⟩ := hsm h hh hle
  have htm : t ∈ Icc t0 t1 := ⟨ht, by linarith⟩
  obtain ⟨K', hK'⟩ := explicit_stages_exist hA f (u t) h
  have hyR : ‖y‖ ≤ R + 1 := by
    have := norm_add_le (y - u t) (u t)
    rw [sub_add_cancel] at this
    linarith [hub t htm]
  refine ⟨?_, fun i => (explicit_stages_le hA hfb hyR hh hM s2 hK i).2⟩
  have b1 := fun i => (explicit_stages_le hA hfb hyR hh hM s2 hK i).1
  have b2 := fun i => (explicit_stages_le hA hfb ((hub t htm).trans (by linarith)) hh hM s2 hK' i).1
  have hdiff := stages_diff (S := Metric.closedBall (0 : E) (R + 1 + 1)) (δ := 0) hL hLip hh le_rfl s3
    (fun i => by simpa using b1 i) (fun i => by simpa using b2 i) (fun i => by rw [← hK i, sub_self, norm_zero]) hK'
  have hloc := hC ⟨(t, h, K'), ⟨ht, hh, hle, hth⟩, hK'⟩
  simp only [Real.norm_of_nonneg (pow_nonneg hh _)] at hloc
  have e : y + h • (∑ i, b i • K i) - u (t + h) = (y - u t) + h • (∑ i, b i • (K i - K' i)) +
      (u t + h • (∑ i, b i • K' i) - u (t + h)) := by
    simp only [smul_sub, Finset.sum_sub_distrib]; abel
  rw [e]
  have n1 := norm_add_le ((y - u t) + h • (∑ i, b i • (K i - K' i))) (u t + h • (∑ i, b i • K' i) - u (t + h))
  have n2 := norm_add_le (y - u t) (h • (∑ i, b i • (K i - K' i)))
  have n3 : ‖h • (∑ i, b i • (K i - K' i))‖ ≤ h * (β * (2 * (L * ‖y - u t‖ + 0))) := by
    rw [norm_smul, Real.norm_of_nonneg hh]
    exact mul_le_mul_of_nonneg_left (wsum_le b hdiff) hh
  have n4 : C * h ^ (p + 1) ≤ max C 0 * h ^ (p + 1) := mul_le_mul_of_nonneg_right (le_max_left _ _) (pow_nonneg hh _)
  calc _ ≤ ‖y - u t‖ + h * (β * (2 * (L * ‖y - u t‖ + 0))) + max C 0 * h ^ (p + 1) := by linarith
    _ = _ := by ring

/-- **the embedded error estimate**: two sets of weights that satisfy the order conditions up to `q` give results that differ by
`O(h^(q+1))`, uniformly for initial values in a ball -/
theorem explicit_estimate {q : ℕ} (hf : ContDiff ℝ q f) {A : Fin s → Fin s → ℝ} {b b2 : Fin s → ℝ} (ho : HasOrder A b q)
    (ho2 : HasOrder A b2 q) (hA : ∀ i j, i ≤ j → A i j = 0) {R : ℝ} (_hR : 0 ≤ R) :
    ∃ C h0 : ℝ, 0 ≤ C ∧ 0 < h0 ∧ ∀ (h : ℝ) (y : E) (K : Fin s → E), 0 ≤ h → h ≤ h0 → ‖y‖ ≤ R →
      (∀ i, K i = f (y + h • ∑ j, A i j • K j)) → ‖h • ∑ i, (b2 i - b i) • K i‖ ≤ C * h ^ (q + 1) := by
  obtain ⟨M, hM, hfb⟩ := bounded_deriv hf (Nat.zero_le q) (R + 1)
  have hfb : ∀ z, ‖z‖ ≤ R + 1 → ‖f z‖ ≤ M := fun z hz => by simpa using hfb z hz
  have hα := absSum_nonneg A
  set h0 := min 1 (1 / (absSum A * M + 1)) with hh0
  have h0pos : 0 < h0 := lt_min one_pos (by positivity)
  have hsm : ∀ h, 0 ≤ h → h ≤ h0 → h * (absSum A * M) ≤ 1 := by
    intro h h1 h2
    have h3 := h2.trans (min_le_right _ _)
    rw [le_div_iff₀ (by positivity)] at h3
    nlinarith
  let X := {x : ℝ × E × (Fin s → E) // (0 ≤ x.1 ∧ x.1 ≤ h0 ∧ ‖x.2.1‖ ≤ R) ∧
    ∀ i, x.2.2 i = f (x.2.1 + x.1 • ∑ j, A i j • x.2.2 j)}
  have hKb : ∀ (x : X) i, ‖x.1.2.2 i‖ ≤ M := fun x i =>
    (explicit_stages_le hA (R := R) hfb x.2.1.2.2 x.2.1.1 hM (hsm _ x.2.1.1 x.2.1.2.1) x.2.2 i).2
  have hexp := stages_expand (X := X) (l := ⊤) (y := fun x => x.1.2.1) (h := fun x => x.1.1) (K := fun x => x.1.2.2) hf
    (Eventually.of_forall fun x => ⟨x.2.1.1, x.2.1.2.1.trans (min_le_left _ _)⟩)
    (isBigO_one_of_bound (R := R) (Eventually.of_forall fun x => x.2.1.2.2)) A
    (fun i => isBigO_one_of_bound (R := M) (Eventually.of_forall fun x => hKb x i)) (Eventually.of_forall fun x => x.2.2) q (le_refl q)
  have h3 : (fun x : X => ∑ i, (b2 i - b i) • x.1.2.2 i) =O[⊤] fun x => x.1.1 ^ q := by
    have e : ∀ x : X, ∑ i, (b2 i - b i) • x.1.2.2 i =
        ∑ i, (b2 i - b i) • (x.1.2.2 i - ser f (fun t => t.weight A i) q x.1.2.1 x.1.1) := by
      intro x
      have h0 : ∑ i, (b2 i - b i) • ser f (fun t => t.weight A i) q x.1.2.1 x.1.1 = 0 := by
        rw [← ser_lin, ser]
        apply Finset.sum_eq_zero
        intro t ht
        have : ∑ j, (b2 j - b j) * t.weight A j = 0 := by
          simp only [sub_mul, Finset.sum_sub_distrib]
          rw [ho t (mem_trees.mp ht), ho2 t (mem_trees.mp ht), sub_self]
        rw [this, mul_zero, zero_smul]
      simp only [smul_sub, Finset.sum_sub_distrib, h0, sub_zero]
    simp only [e]
    exact isBigO_fun_sum fun i _ => (hexp i).const_smul_left (b2 i - b i)
  have h4 := ((isBigO_refl (fun x : X => x.1.1) ⊤).smul h3).congr_right (g₂ := fun x : X => x.1.1 ^ (q + 1))
    (fun x => by rw [smul_eq_mul, pow_succ'])
  rw [isBigO_top] at h4
  obtain ⟨C, hC⟩ := h4
  refine ⟨max C 0, h0, le_max_right _ _, h0pos, ?_⟩
  intro h y K hh hle hy hK
  have := hC ⟨(h, y, K), ⟨hh, hle, hy⟩, hK⟩
  simp only [Real.norm_of_nonneg (pow_nonneg hh _)] at this
  exact this.trans (mul_le_mul_of_nonneg_right (le_max_left _ _) (pow_nonneg hh _))

end Verif
