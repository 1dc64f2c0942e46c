import Verif.Timer
import Verif.Messages
import Verif.Prop.Newton
import Verif.Prop.Irk
import Verif.FloatInst

/-!
# Properties C100 (messages of the non-linear solvers) and C101 (the timer)
-/

namespace Verif
open Timer

/-! ### C100 -/

section messages
variable {F : Type} [Add F] [Sub F] [Mul F] [Div F] [Neg F] [Scalar F] {n : ℕ} {la : LinAlg F}

/-- **C100.**  The message determines the status: codes with a name are told apart from each other and from all other codes. -/
theorem C100_injective {s s' : ℤ} (hs : 0 ≤ s ∧ s ≤ 4) (h : statusMessage s = statusMessage s') : s = s' := by
  have key : ∀ t : ℤ, 0 ≤ t ∧ t ≤ 4 ∨ statusMessage t = "Unrecognized status code!" := by
    intro t
    by_cases ht : 0 ≤ t ∧ t ≤ 4
    · exact .inl ht
    · right
      unfold statusMessage
      rw [if_neg (by omega), if_neg (by omega), if_neg (by omega), if_neg (by omega), if_neg (by omega)]
  have inj : ∀ a b : Fin 5, statusMessage (a : ℕ) = statusMessage (b : ℕ) → a = b := by decide
  have named : ∀ a : Fin 5, statusMessage (a : ℕ) ≠ "Unrecognized status code!" := by decide
  obtain ⟨a, rfl⟩ : ∃ a : Fin 5, s = (a : ℕ) := ⟨⟨s.toNat, by omega⟩, by simp; omega⟩
  rcases key s' with hs' | hs'
  · obtain ⟨b, rfl⟩ : ∃ b : Fin 5, s' = (b : ℕ) := ⟨⟨s'.toNat, by omega⟩, by simp; omega⟩
    rw [inj a b h]
  · rw [hs'] at h
    exact absurd h (named a)

/-- **C100 (`newton_iterate`).**  Whatever the problem and the options, the message of a result is one of three. -/
theorem C100_newton {fn : NFun F n} {x xr : Vec F n} {o : NewtonOpts F} {st0 st : NewtonStatus F} {quiet : Bool}
    (h : newtonIterate la fn x o st0 quiet = some (.ret (xr, st))) :
    statusMessage st.conv = "SUCCESS" ∨ statusMessage st.conv = "MAXIT_EXCEEDED" ∨ statusMessage st.conv = "GENERIC_ERROR" := by
  have hc : st.conv = 0 ∨ st.conv = 3 ∨ st.conv = 4 := by
    obtain ⟨s, xs, ds, -, hcase⟩ := newtonImpl_trace (refresh_le o quiet) h
    rcases hcase with ⟨-, hfin⟩ | ⟨-, -, h4, -⟩
    · have : st.conv = if isFin (ssqrt s.res2) then (if (s.iters : ℤ) = o.maxit then 3 else 0) else 4 := by
        have := congrArg (fun p => p.2.conv) hfin; simpa [newtonFinish] using this
      rw [this]
      split_ifs <;> simp
    · exact .inr (.inr h4)
  rcases hc with e | e | e <;> rw [e] <;> decide

/-- **C100 (`broyden_iterate`).** -/
theorem C100_broyden {fn : Vec F n → Vec F n} {x xr : Vec F n} {o : NewtonOpts F} {st0 st : NewtonStatus F}
    (h : broydenIterate fn x o st0 = some (.ret (xr, st))) : statusMessage st.conv = "SUCCESS" := by
  obtain ⟨xr', st', h', hc⟩ := broyden_returns fn x o st0
  rw [h] at h'
  cases h'
  rw [hc]
  rfl

/-- **C100 (`newton_solve_stages`).** -/
theorem C100_stages {nd : Bool} {fn : OdeFun F n} {sc : SolverCoeffs F} {t dt : F} {y : Vec F n} {maxit refresh : ℤ} {xtol Rtol : F}
    {count : IrkCounters} {log : CallLog F n} {r : StageResult F (sc.ns * n) n}
    (h : newtonSolveStages nd la fn sc t dt y maxit refresh xtol Rtol count log = .ret r) :
    statusMessage r.status = "SUCCESS" ∨ statusMessage r.status = "MAXIT_EXCEEDED" := by
  have hc : r.status = 0 ∨ r.status = 3 := by
    obtain ⟨m, Ys, dYs, -, -, -, h0 | h0⟩ := C36_contract h
    · exact .inl h0.1
    · exact .inr h0.1
  rcases hc with e | e <;> rw [e] <;> decide

end messages

/-! ### C101 -/

/-- microseconds since the epoch -/
def Timer.Timeval.micros (t : Timeval) : ℤ := 1000000 * t.sec + t.usec

/-- what `gettimeofday` fills in -/
def Timer.Timeval.Normal (t : Timeval) : Prop := 0 ≤ t.usec ∧ t.usec < 1000000

/-- **C101.**  The result is the time between the two readings, in milliseconds. -/
theorem C101_elapsed (now tic : Timeval) : (getElapsed now tic : ℝ) = ((now.micros - tic.micros : ℤ) : ℝ) / 1000 := by
  simp only [getElapsed, lit_real, Timeval.micros]
  push_cast
  ring

/-- **C101 (`toc`).**  The two numbers printed are the result and the same time in seconds; nothing is printed without a stream. -/
theorem C101_toc (tic now : Timeval) (msg post : String) :
    (toc true tic now msg post : ℝ × List (Tok ℝ)).1 = (getElapsed now tic : ℝ) ∧
    (toc true tic now msg post : ℝ × List (Tok ℝ)).2.filterMap (fun | .num x => some x | .str _ => none) =
      [(getElapsed now tic : ℝ), ((now.micros - tic.micros : ℤ) : ℝ) / 1000000] ∧
    (toc false tic now msg post : ℝ × List (Tok ℝ)) = ((getElapsed now tic : ℝ), []) := by
  refine ⟨rfl, ?_, rfl⟩
  have e : (getElapsed now tic : ℝ) * (lit (1 / 1000) : ℝ) = ((now.micros - tic.micros : ℤ) : ℝ) / 1000000 := by
    rw [C101_elapsed, lit_real]; push_cast; ring
  simp only [toc, if_true, e]
  by_cases h1 : msg.isEmpty <;> by_cases h2 : post.isEmpty <;> simp [h1, h2]

/-- length of a unit in milliseconds -/
noncomputable def unitMs (u : String) : Option ℝ :=
  if u = "s" then some 1000 else if u = "ms" then some 1 else if u = "us" then some (1 / 1000) else none

/-- **C101 (`print_performance`).**  Number and unit printed denote the elapsed time. -/
theorem C101_performance (e : ℝ) : ∃ u, unitMs (perfTime e).2 = some u ∧ (perfTime e).1 * u = e := by
  unfold perfTime
  simp only [lit_real, ltb_real]
  split_ifs
  · exact ⟨1000, by simp [unitMs], by norm_num⟩
  · exact ⟨1 / 1000, by simp [unitMs], by push_cast; ring⟩
  · exact ⟨1, by simp [unitMs], by norm_num⟩

/-- **C101 (microseconds).**  The unit `us` is chosen only for a run of no measurable duration: the clock ticks in microseconds and
the threshold is one microsecond. -/
theorem C101_us_unused {now tic : Timeval} (h : tic.micros ≤ now.micros) :
    (perfTime (getElapsed now tic : ℝ)).2 = "us" ↔ now.micros = tic.micros := by
  rw [C101_elapsed]
  unfold perfTime
  simp only [lit_real, ltb_real]
  constructor
  · intro h'
    split_ifs at h' with h1 h2
    · simp at h'
    · have : ((now.micros - tic.micros : ℤ) : ℝ) < ((1 : ℤ) : ℝ) := by
        push_cast at h2 ⊢
        linarith
      rw [Int.cast_lt] at this
      omega
    · simp at h'
  · intro h'
    rw [h', sub_self]
    norm_num

/-! #### binary64 -/

namespace FP

theorem rnd_small (b : Bool) {q : ℚ} (hq : |q| ≤ 2 ^ 100) : (rnd b q).isFinite = true ∧ (rnd b q).val = rnQ q := by
  have h := rnd_float b (q := q) (by
    have h1 : ((|q| : ℚ) : ℝ) ≤ ((2 ^ 100 : ℚ) : ℝ) := by exact_mod_cast hq
    push_cast at h1
    exact h1.trans (pow_le_pow_right₀ (by norm_num) (by norm_num)))
  exact ⟨h.1, h.2.2⟩

theorem rnQ_int {k : ℤ} (hk : |k| ≤ 2 ^ 53) : rnQ k = k := by
  have := rnQ_of_mult (m := k) (e := 0) (by norm_num) hk
  simpa using this

theorem rnQ_small {q : ℚ} (hq : |q| ≤ 2 ^ 99) : |rnQ q| ≤ 2 ^ 100 := by
  have h := rnQ_error q
  have h1 := abs_add_le (rnQ q - q) q
  rw [sub_add_cancel] at h1
  have h2 : (1 : ℚ) / 2 ^ 53 * (1 + |q|) ≤ 1 / 2 ^ 53 * (1 + 2 ^ 99) := by gcongr
  have h3 : (1 : ℚ) / 2 ^ 53 * (1 + 2 ^ 99) ≤ 2 ^ 99 := by norm_num
  have h4 : (2 : ℚ) ^ 100 = 2 ^ 99 + 2 ^ 99 := by norm_num
  linarith

theorem mul_small {x y : FP} (hx : x.isFinite = true) (hy : y.isFinite = true) (h : |x.val * y.val| ≤ 2 ^ 100) :
    (x * y).isFinite = true ∧ (x * y).val = rnQ (x.val * y.val) := by
  obtain ⟨b, e⟩ := fmul_fin hx hy
  rw [e]
  exact rnd_small b h

theorem add_small {x y : FP} (hx : x.isFinite = true) (hy : y.isFinite = true) (h : |x.val + y.val| ≤ 2 ^ 100) :
    (x + y).isFinite = true ∧ (x + y).val = rnQ (x.val + y.val) := by
  rcases add_fin hx hy with e | ⟨rfl, rfl, e⟩
  · rw [e]; exact rnd_small _ h
  · rw [e]; simp [isFinite, val]

/-- the operations of `get_elapsed` in binary64 -/
theorem elapsed_val [Libm] {now tic : Timeval} (h1 : now.Normal) (h2 : tic.Normal) (h : tic.micros ≤ now.micros)
    (hs : now.sec - tic.sec ≤ 2 ^ 43) :
    (getElapsed now tic : FP).isFinite = true ∧ (getElapsed now tic : FP).val =
      rnQ (rnQ (((now.usec - tic.usec : ℤ) : ℚ) * rnQ (1 / 1000)) + ((now.sec - tic.sec : ℤ) : ℚ) * 1000) := by
  obtain ⟨a1, a2⟩ := h1
  obtain ⟨b1, b2⟩ := h2
  unfold Timeval.micros at h
  set u : ℤ := now.usec - tic.usec with hu
  set D : ℤ := now.sec - tic.sec with hD
  have hu1 : |u| ≤ 1000000 := by rw [abs_le]; omega
  have hD0 : 0 ≤ D := by omega
  have hun : |u| ≤ 2 ^ 53 := hu1.trans (by norm_num)
  have hDn : |D| ≤ 2 ^ 53 := by rw [abs_of_nonneg hD0]; exact hs.trans (by norm_num)
  have hDm : |D * 1000| ≤ 2 ^ 53 := by rw [abs_of_nonneg (by omega)]; norm_num at hs ⊢; omega
  have cast : ∀ {k : ℤ} {m : ℕ}, |k| ≤ 2 ^ m → |(k : ℚ)| ≤ 2 ^ m := by
    intro k m hk
    exact_mod_cast hk
  have huq : |(u : ℚ)| ≤ 2 ^ 53 := cast hun
  have hDq : |(D : ℚ)| ≤ 2 ^ 53 := cast hDn
  have hDmq : |((D * 1000 : ℤ) : ℚ)| ≤ 2 ^ 53 := cast hDm
  have l1 := rnd_small false (q := (u : ℚ)) (huq.trans (by norm_num))
  have l2 := rnd_small false (q := 1 / 1000) (by norm_num)
  have l3 := rnd_small false (q := (D : ℚ)) (hDq.trans (by norm_num))
  have l4 := rnd_small false (q := 1000) (by norm_num)
  rw [rnQ_int hun] at l1
  rw [rnQ_int hDn] at l3
  have e4 : rnQ 1000 = 1000 := by have := rnQ_int (k := 1000) (by norm_num); simpa using this
  rw [e4] at l4
  have hc : |rnQ (1 / 1000)| ≤ 1 := by
    have h1 := rnQ_error (1 / 1000)
    have h3 := abs_add_le (rnQ (1 / 1000) - 1 / 1000) (1 / 1000)
    rw [sub_add_cancel] at h3
    norm_num at h1 h3 ⊢
    linarith
  have p1 := mul_small l1.1 l2.1 (by
    rw [l1.2, l2.2, abs_mul]
    calc |(u : ℚ)| * |rnQ (1 / 1000)| ≤ 2 ^ 53 * 1 := mul_le_mul huq hc (abs_nonneg _) (by norm_num)
      _ ≤ 2 ^ 100 := by norm_num)
  have p2 := mul_small l3.1 l4.1 (by
    rw [l3.2, l4.2]
    push_cast at hDmq
    exact hDmq.trans (by norm_num))
  rw [l1.2, l2.2] at p1
  have e5 : rnQ ((D : ℚ) * 1000) = D * 1000 := by
    have := rnQ_int hDm
    push_cast at this
    exact this
  rw [l3.2, l4.2, e5] at p2
  have s := add_small p1.1 p2.1 (by
    rw [p1.2, p2.2]
    refine (abs_add_le _ _).trans ?_
    have h1 : |rnQ ((u : ℚ) * rnQ (1 / 1000))| ≤ 2 ^ 55 := by
      have h2 := rnQ_error ((u : ℚ) * rnQ (1 / 1000))
      have h3 := abs_add_le (rnQ ((u : ℚ) * rnQ (1 / 1000)) - (u : ℚ) * rnQ (1 / 1000)) ((u : ℚ) * rnQ (1 / 1000))
      rw [sub_add_cancel] at h3
      have h4 : |(u : ℚ) * rnQ (1 / 1000)| ≤ 2 ^ 53 * 1 := by
        rw [abs_mul]; exact mul_le_mul huq hc (abs_nonneg _) (by norm_num)
      have h5 : (1 : ℚ) / 2 ^ 53 * (1 + |(u : ℚ) * rnQ (1 / 1000)|) ≤ 1 / 2 ^ 53 * (1 + 2 ^ 53 * 1) := by gcongr
      have h6 : (1 : ℚ) / 2 ^ 53 * (1 + 2 ^ 53 * 1) + 2 ^ 53 * 1 ≤ 2 ^ 55 := by norm_num
      linarith
    push_cast at hDmq
    norm_num at h1 hDmq ⊢
    linarith)
  rw [p1.2, p2.2] at s
  exact s

theorem thousandth : rnQ (1 / 1000) = 1152921504606847 / 2 ^ 60 := by decide +kernel

/-- **C101 (binary64).**  If the clock did not go back, the elapsed time is finite, not negative, and off by at most a picosecond
plus a relative error of `2^-51`. -/
theorem C101_binary64 [Libm] {now tic : Timeval} (h1 : now.Normal) (h2 : tic.Normal) (h : tic.micros ≤ now.micros)
    (hs : now.sec - tic.sec ≤ 2 ^ 43) :
    (getElapsed now tic : FP).isFinite = true ∧ 0 ≤ (getElapsed now tic : FP).val ∧
    |(getElapsed now tic : FP).val - ((now.micros - tic.micros : ℤ) : ℚ) / 1000| ≤
      1 / 10 ^ 9 + 1 / 2 ^ 51 * (((now.micros - tic.micros : ℤ) : ℚ) / 1000) := by
  obtain ⟨hf, hv⟩ := elapsed_val h1 h2 h hs
  refine ⟨hf, ?_, ?_⟩
  · rw [hv, thousandth]
    have hu : now.usec - tic.usec ≥ -999999 := by have := h1.1; have := h2.2; omega
    apply rnQ_nonneg
    rcases le_or_gt 1 (now.sec - tic.sec) with hD | hD
    · have hD' : (1 : ℚ) ≤ ((now.sec - tic.sec : ℤ) : ℚ) := by exact_mod_cast hD
      have hu' : (-999999 : ℚ) ≤ ((now.usec - tic.usec : ℤ) : ℚ) := by exact_mod_cast hu
      have h3 : rnQ (-1000) ≤ rnQ (((now.usec - tic.usec : ℤ) : ℚ) * (1152921504606847 / 2 ^ 60)) :=
        rnQ_mono (by
          have : (-999999 : ℚ) * (1152921504606847 / 2 ^ 60) ≤
            ((now.usec - tic.usec : ℤ) : ℚ) * (1152921504606847 / 2 ^ 60) := by gcongr
          refine le_trans ?_ this
          norm_num)
      have e4 : rnQ (-1000) = -1000 := by have := rnQ_int (k := -1000) (by norm_num); simpa using this
      rw [e4] at h3
      linarith
    · have hm := h
      unfold Timeval.micros at hm
      have hD0 : now.sec - tic.sec = 0 := by
        have := h1.2; have := h2.1; omega
      have hu0 : 0 ≤ now.usec - tic.usec := by omega
      have hu' : (0 : ℚ) ≤ ((now.usec - tic.usec : ℤ) : ℚ) := by exact_mod_cast hu0
      rw [hD0]
      have := rnQ_nonneg (mul_nonneg hu' (by norm_num : (0 : ℚ) ≤ 1152921504606847 / 2 ^ 60))
      simpa using this
  · rw [hv, thousandth]
    have hex : ((now.micros - tic.micros : ℤ) : ℚ) / 1000 =
        ((now.usec - tic.usec : ℤ) : ℚ) / 1000 + ((now.sec - tic.sec : ℤ) : ℚ) * 1000 := by
      unfold Timeval.micros; push_cast; ring
    have hex0 : 0 ≤ ((now.micros - tic.micros : ℤ) : ℚ) / 1000 := by
      have : (0 : ℚ) ≤ ((now.micros - tic.micros : ℤ) : ℚ) := by exact_mod_cast sub_nonneg.mpr h
      positivity
    rw [hex] at hex0 ⊢
    have hub : |((now.usec - tic.usec : ℤ) : ℚ)| ≤ 1000000 := by
      have : |now.usec - tic.usec| ≤ 1000000 := by
        have := h1.1; have := h1.2; have := h2.1; have := h2.2; rw [abs_le]; omega
      exact_mod_cast this
    generalize ((now.usec - tic.usec : ℤ) : ℚ) = u at hub hex0 ⊢
    generalize ((now.sec - tic.sec : ℤ) : ℚ) = D at hex0 ⊢
    have r1 := rnQ_error (u * (1152921504606847 / 2 ^ 60))
    have r2 := rnQ_error (rnQ (u * (1152921504606847 / 2 ^ 60)) + D * 1000)
    set p := rnQ (u * (1152921504606847 / 2 ^ 60))
    have b1 : |u * (1152921504606847 / 2 ^ 60)| ≤ 1001 := by
      rw [abs_mul, abs_of_pos (by norm_num : (0 : ℚ) < 1152921504606847 / 2 ^ 60)]
      calc |u| * (1152921504606847 / 2 ^ 60) ≤ 1000000 * (1152921504606847 / 2 ^ 60) := by gcongr
        _ ≤ 1001 := by norm_num
    have b2 : |u * (1152921504606847 / 2 ^ 60) - u / 1000| ≤ 1 / 10 ^ 11 := by
      rw [show u * (1152921504606847 / 2 ^ 60) - u / 1000 = u * (1152921504606847 / 2 ^ 60 - 1 / 1000) by ring, abs_mul]
      calc |u| * |(1152921504606847 : ℚ) / 2 ^ 60 - 1 / 1000| ≤ 1000000 * |(1152921504606847 : ℚ) / 2 ^ 60 - 1 / 1000| := by gcongr
        _ ≤ 1 / 10 ^ 11 := by norm_num [abs_of_pos, abs_of_neg]
    have b3 : (1 : ℚ) / 2 ^ 53 * (1 + |u * (1152921504606847 / 2 ^ 60)|) ≤ 1 / 2 ^ 53 * (1 + 1001) := by gcongr
    have b4 : |p - u / 1000| ≤ 1 / 10 ^ 10 := by
      have := abs_add_le (p - u * (1152921504606847 / 2 ^ 60)) (u * (1152921504606847 / 2 ^ 60) - u / 1000)
      rw [show p - u * (1152921504606847 / 2 ^ 60) + (u * (1152921504606847 / 2 ^ 60) - u / 1000) = p - u / 1000 by ring] at this
      have : (1 : ℚ) / 2 ^ 53 * (1 + 1001) + 1 / 10 ^ 11 ≤ 1 / 10 ^ 10 := by norm_num
      linarith
    have b5 : |p + D * 1000| ≤ u / 1000 + D * 1000 + 1 / 10 ^ 10 := by
      have := abs_add_le (p - u / 1000) (u / 1000 + D * 1000)
      rw [show p - u / 1000 + (u / 1000 + D * 1000) = p + D * 1000 by ring, abs_of_nonneg hex0] at this
      linarith
    have b6 := abs_add_le (rnQ (p + D * 1000) - (p + D * 1000)) (p - u / 1000)
    rw [show rnQ (p + D * 1000) - (p + D * 1000) + (p - u / 1000) = rnQ (p + D * 1000) - (u / 1000 + D * 1000) by ring] at b6
    norm_num at r2 ⊢
    linarith

/-- **C101 (binary64, microseconds).**  One microsecond across the turn of a second is reported in `us` after all: the rounded
difference is below the threshold. -/
theorem C101_us_binary64 [Libm] (s : ℤ) : (perfTime (getElapsed ⟨s + 1, 0⟩ ⟨s, 999999⟩ : FP)).2 = "us" := by
  have : (getElapsed ⟨s + 1, 0⟩ ⟨s, 999999⟩ : FP) = rnd false (-999999) * rnd false (1 / 1000) + rnd false 1 * rnd false 1000 := by
    unfold getElapsed
    simp only [add_sub_cancel_left]
    rfl
  rw [this]
  unfold perfTime
  have h1 : lt (rnd false 1000) (rnd false (-999999) * rnd false (1 / 1000) + rnd false 1 * rnd false 1000) = false := by decide +kernel
  have h2 : lt (rnd false (-999999) * rnd false (1 / 1000) + rnd false 1 * rnd false 1000) (rnd false (1 / 1000)) = true := by
    decide +kernel
  rw [if_neg (by change ¬ lt (rnd false 1000) _ = true; rw [h1]; simp), if_pos (show ltb _ (lit (1 / 1000) : FP) = true from h2)]

end FP

/-! ### examples -/

-- a run of 2.5 s across the turn of a second
example : (Timeval.mk 103 200000).Normal ∧ (Timeval.mk 100 700000).Normal ∧
    (Timeval.mk 100 700000).micros ≤ (Timeval.mk 103 200000).micros ∧
    (getElapsed ⟨103, 200000⟩ ⟨100, 700000⟩ : ℝ) = 2500 ∧ (perfTime (2500 : ℝ)) = (5 / 2, "s") := by
  refine ⟨by simp [Timeval.Normal], by simp [Timeval.Normal], by simp [Timeval.micros], ?_, ?_⟩
  · rw [C101_elapsed]; norm_num [Timeval.micros]
  · unfold perfTime
    rw [if_pos (by rw [ltb_real]; norm_num)]
    norm_num

-- a run that uses up its iterations, and one of Broyden's method
example : ∃ xr st, newtonIterate laReal exAffine 0 (nOpts 0 1) nStat true = some (.ret (xr, st)) ∧
    statusMessage st.conv ≠ "SUCCESS" := by
  obtain ⟨xr, st, h⟩ := C27_returns laReal exAffine 0 (nOpts 0 1) nStat true
  obtain ⟨xs, ds, -, -, -, h4, -⟩ := C27_success (by simp) (by norm_num [nOpts]) h
  refine ⟨xr, st, h, fun hc => ?_⟩
  have : (0 : ℤ) = st.conv := C100_injective (s := 0) (by norm_num) (by rw [hc]; rfl)
  obtain ⟨g1, g2, -⟩ := h4 this.symm
  simp only [nOpts] at g2
  omega

example : ∃ xr st, broydenIterate (fun x : Vec ℝ 1 => x - 3) 0 (nOpts 1 9) nStat = some (.ret (xr, st)) ∧
    statusMessage st.conv = "SUCCESS" := by
  obtain ⟨xr, st, h, -⟩ := broyden_returns (fun x : Vec ℝ 1 => x - 3) 0 (nOpts 1 9) nStat
  exact ⟨xr, st, h, C100_broyden h⟩

end Verif
