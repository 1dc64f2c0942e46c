import Verif.ErkShipped

/-!
# Runs of the explicit integrator in exact arithmetic: helper lemmas
-/

namespace Verif
open Spec
variable {n : ℕ} {nd : Bool} {f : ℝ → Vec ℝ n → Vec ℝ n} {t0 t1 : ℝ} {y0 : Vec ℝ n}
  {o : ErkOpts ℝ} {dt : ℝ} {sc : SolverCoeffs ℝ} {oo : OutOpts} {fuel : ℕ} {out : ErkOutput ℝ n}

/-- With assertions enabled a returning run had a valid interval and step size. -/
theorem valid_of_ret (h : erkGuts nd f t0 t1 y0 o dt sc oo fuel = some (.ret out))
    (hpos : nd = false ∨ (0 < dt ∧ t0 < t1)) : 0 < dt ∧ t0 < t1 := by
  rcases hpos with hnd | h'
  · obtain ⟨mo, s, -, hdt, -⟩ := erkGuts_ret h
    rcases hdt with h1 | h1
    · rw [hnd] at h1; cases h1
    · rw [clipDt_real] at h1
      have h2 : (0 : ℝ) < min dt (t1 - t0) := by simpa using h1
      rw [lt_min_iff] at h2
      exact ⟨h2.1, by linarith [h2.2]⟩
  · exact h'

/-- What the loop invariants give about a returned run; `min_order` is the one of the tableau. -/
theorem erk_chain_order {J : ErkState ℝ n → Prop} {Rel : ℝ → Vec ℝ n → Sample ℝ n → Prop}
    (h : erkGuts nd f t0 t1 y0 o dt sc oo fuel = some (.ret out))
    (hpos : nd = false ∨ (0 < dt ∧ t0 < t1))
    (hJ0 : ∀ d, d = clipDt t0 t1 dt → 0 < d → d ≤ dt → J (erkInit f t0 y0 d sc))
    (hJ : ∀ mo s s', minOrder sc = some mo → TimeInv t0 t1 s → J s → erkBody nd f t1 o oo sc mo s = .next s' → J s')
    (hacc : ∀ mo s, minOrder sc = some mo → J s → TimeInv t0 t1 s → s.t < t1 →
      (o.adaptive = false ∨ (attemptAt f t1 o sc mo s).reject = false) →
      Rel s.t s.y (newSample sc s (attemptAt f t1 o sc mo s))) :
    ∃ recs s, IsColumns out recs ∧ recs.IsChain (fun a b => Rel a.t a.y b) ∧
      recs.head? = some (initSample t0 y0 sc) ∧ TimeInv t0 t1 s ∧ J s ∧
      out.calls = s.sol.calls ∧ (∃ l, recs.getLast? = some l ∧ l.t = s.t ∧ l.y = s.y) ∧
      ((out.status = 0 ∧ s.t = t1) ∨ (out.status = 128 ∧ s.t < t1)) := by
  obtain ⟨hd, h01⟩ := valid_of_ret h hpos
  obtain ⟨mo, s, hmo, -, hr, hout⟩ := erkGuts_ret h
  have hc0 : 0 < clipDt t0 t1 dt := by
    rw [clipDt_real]; exact lt_min hd (by linarith)
  have hc1 : clipDt t0 t1 dt ≤ dt := by rw [clipDt_real]; exact min_le_left _ _
  obtain ⟨⟨hT, hj⟩, recs, hrec⟩ := reach_recs (Rel := Rel)
    (J := fun s => TimeInv t0 t1 s ∧ J s) ⟨timeInv_init h01.le hc0, hJ0 _ rfl hc0 hc1⟩
    (fun a b ha hb => ⟨timeInv_next ha.1 hb, hJ mo a b hmo ha.1 ha.2 hb⟩)
    (fun s a hs hlt hA hr => by
      subst hA
      exact hacc mo s hmo hs.2 hs.1 (by simpa using hlt) hr) hr
  rcases hout with ⟨hlt, rfl⟩ | ⟨hlt, hm0, hm1, rfl⟩
  · refine ⟨recs, s, ⟨hrec.cols.t, hrec.cols.y, hrec.cols.ks, hrec.cols.errEst, hrec.cols.err⟩,
      hrec.chain, hrec.head, hT, hj, rfl, hrec.last, Or.inl ⟨hrec.status, ?_⟩⟩
    exact le_antisymm hT.hi (by simpa using hlt)
  · refine ⟨recs, s, ⟨hrec.cols.t, hrec.cols.y, hrec.cols.ks, hrec.cols.errEst, hrec.cols.err⟩,
      hrec.chain, hrec.head, hT, hj, rfl, hrec.last, Or.inr ⟨rfl, ?_⟩⟩
    simpa using hlt

/-- What the loop invariants give about a returned run. -/
theorem erk_chain {J : ErkState ℝ n → Prop} {Rel : ℝ → Vec ℝ n → Sample ℝ n → Prop}
    (h : erkGuts nd f t0 t1 y0 o dt sc oo fuel = some (.ret out))
    (hpos : nd = false ∨ (0 < dt ∧ t0 < t1))
    (hJ0 : ∀ d, 0 < d → d ≤ dt → J (erkInit f t0 y0 d sc))
    (hJ : ∀ mo s s', TimeInv t0 t1 s → J s → erkBody nd f t1 o oo sc mo s = .next s' → J s')
    (hacc : ∀ mo s, J s → TimeInv t0 t1 s → s.t < t1 →
      (o.adaptive = false ∨ (attemptAt f t1 o sc mo s).reject = false) →
      Rel s.t s.y (newSample sc s (attemptAt f t1 o sc mo s))) :
    ∃ recs s, IsColumns out recs ∧ recs.IsChain (fun a b => Rel a.t a.y b) ∧
      recs.head? = some (initSample t0 y0 sc) ∧ TimeInv t0 t1 s ∧ J s ∧
      out.calls = s.sol.calls ∧ (∃ l, recs.getLast? = some l ∧ l.t = s.t ∧ l.y = s.y) ∧
      ((out.status = 0 ∧ s.t = t1) ∨ (out.status = 128 ∧ s.t < t1)) :=
  erk_chain_order h hpos (fun d _ => hJ0 d) (fun mo s s' _ => hJ mo s s') (fun mo s _ => hacc mo s)

/-- A chain relation at consecutive indices, in terms of the record vectors. -/
theorem chain_at {recs : List (Sample ℝ n)} {Rel : ℝ → Vec ℝ n → Sample ℝ n → Prop}
    (hc : IsColumns out recs) (hch : recs.IsChain (fun a b => Rel a.t a.y b)) {i : ℕ} {t t' : ℝ}
    (ht : out.tVals[i]? = some t) (ht' : out.tVals[i + 1]? = some t') :
    ∃ b : Sample ℝ n, ∃ y, out.yVals[i]? = some y ∧ Rel t y b ∧ b.t = t' ∧
      out.yVals[i + 1]? = some b.y ∧ out.stages[i + 1]? = some b.ks ∧
      out.errEst[i + 1]? = some b.errEst ∧ out.err[i + 1]? = some b.err := by
  rw [hc.t, List.getElem?_map] at ht ht'
  rw [Option.map_eq_some_iff] at ht ht'
  obtain ⟨a, ha, rfl⟩ := ht
  obtain ⟨b, hb, rfl⟩ := ht'
  obtain ⟨hi, rfl⟩ := List.getElem?_eq_some_iff.mp ha
  obtain ⟨hi', rfl⟩ := List.getElem?_eq_some_iff.mp hb
  refine ⟨recs[i + 1], recs[i].y, ?_, List.isChain_iff_getElem.mp hch i hi', rfl, ?_, ?_, ?_, ?_⟩
  · rw [hc.y, List.getElem?_map, ha]; rfl
  · rw [hc.y, List.getElem?_map, hb]; rfl
  · rw [hc.ks, List.getElem?_map, hb]; rfl
  · rw [hc.errEst, List.getElem?_map, hb]; rfl
  · rw [hc.err, List.getElem?_map, hb]; rfl

theorem ksList_ofFn (sc : SolverCoeffs ℝ) (K : ℕ → Vec ℝ n) :
    ksList sc K = List.ofFn (fun i : Fin sc.ns => K i) := by
  unfold ksList
  apply List.ext_getElem
  · simp
  · intro i h1 h2; simp

/-- calls made by one loop pass lie in the interval -/
theorem calls_next (hcn : ∀ i, i < sc.ns → 0 ≤ sc.cn i ∧ sc.cn i ≤ 1) {mo : ℕ}
    {s s' : ErkState ℝ n} (hT : TimeInv t0 t1 s)
    (hC : ∀ p ∈ s.sol.calls, t0 ≤ p.1 ∧ p.1 ≤ t1)
    (hb : erkBody nd f t1 o oo sc mo s = .next s') :
    ∀ p ∈ s'.sol.calls, t0 ≤ p.1 ∧ p.1 ≤ t1 := by
  have hcase := bodyCase nd f t1 o oo sc mo s
  rw [hb] at hcase
  obtain ⟨L, e, -, hL, -⟩ := attempt_sol f o sc mo s (clipDt s.t t1 s.dt) s.sol.bump
  have key : s.t < t1 → ∀ p ∈ s.sol.calls ++ L, t0 ≤ p.1 ∧ p.1 ≤ t1 := by
    intro hlt p hp
    rcases List.mem_append.mp hp with hp | hp
    · exact hC p hp
    · obtain ⟨i, hi, e⟩ := hL p hp
      obtain ⟨c1, c2, -⟩ := clip_facts hT hlt
      obtain ⟨n0, n1⟩ := hcn i hi
      rw [e]
      constructor
      · have := mul_nonneg n0 c1.le
        linarith [hT.lo]
      · have : sc.cn i * clipDt s.t t1 s.dt ≤ 1 * clipDt s.t t1 s.dt :=
          mul_le_mul_of_nonneg_right n1 c1.le
        linarith
  cases hcase with
  | accepted hl hm hb2 a hA hE hr =>
    rw [← attemptAt, ← hA] at e
    have := key (by simpa using hl)
    cases hw : oo.writeToFile <;> simpa [accept, ErkOutput.line, hw, e, ErkOutput.bump] using this
  | rejected hl hm hb2 a hA hE had hr =>
    rw [← attemptAt, ← hA] at e
    have := key (by simpa using hl)
    cases hw : oo.writeToFile <;>
      simpa [rejectStep, ErkOutput.line, hw, e, ErkOutput.bump] using this

/-- linear invariants survive a Runge–Kutta step -/
theorem rkStep_linear {s : ℕ} {A : Fin s → Fin s → ℝ} {b c : Fin s → ℝ} {t h : ℝ}
    {y y' : Vec ℝ n} {k : Fin s → Vec ℝ n} (hs : IsRKStep A b c f t h y y' k) {w : Fin n → ℝ}
    (hw : ∀ t y, ∑ i, w i * f t y i = 0) : ∑ i, w i * y' i = ∑ i, w i * y i := by
  obtain ⟨hk, hy⟩ := hs
  have hk0 : ∀ j, ∑ i, w i * k j i = 0 := fun j => by rw [hk j]; exact hw _ _
  rw [hy]
  simp only [Pi.add_apply, Pi.smul_apply, Finset.sum_apply, smul_eq_mul, mul_add,
    Finset.sum_add_distrib]
  have : ∑ i, w i * (h * ∑ j, b j * k j i) = h * ∑ j, b j * ∑ i, w i * k j i := by
    simp only [Finset.mul_sum]
    rw [Finset.sum_comm]
    apply Finset.sum_congr rfl; intro j _
    apply Finset.sum_congr rfl; intro i _
    ring
  rw [this]
  simp [hk0]

end Verif
