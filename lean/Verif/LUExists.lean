import Verif.LinAlg
import Mathlib.GroupTheory.Perm.Fin

/-!
# Every square matrix has a permuted triangular factorisation

So the exact `arma::lu` never fails.
-/

namespace Verif

theorem exists_plu : ∀ (n : ℕ) (M : Mat ℝ n), ∃ (σ : Equiv.Perm (Fin n)) (L U : Mat ℝ n),
    (∀ i j, i < j → L i j = 0) ∧ (∀ i, L i i = 1) ∧ (∀ i j, j < i → U i j = 0) ∧
    ∀ i j, M (σ i) j = ∑ k, L i k * U k j := by
  intro n
  induction n with
  | zero => intro M; exact ⟨1, M, M, fun i => i.elim0, fun i => i.elim0, fun i => i.elim0, fun i => i.elim0⟩
  | succ n ih =>
    intro M
    obtain ⟨p, hp⟩ : ∃ p, M p 0 ≠ 0 ∨ ∀ i, M i 0 = 0 := by
      by_cases h : ∃ p, M p 0 ≠ 0
      · exact ⟨h.choose, Or.inl h.choose_spec⟩
      · push Not at h; exact ⟨0, Or.inr h⟩
    set W : Mat ℝ (n + 1) := fun i j => M (Equiv.swap 0 p i) j with hW
    set m : Fin n → ℝ := fun i => W i.succ 0 / W 0 0 with hm
    have hcol : ∀ i : Fin n, W i.succ 0 = m i * W 0 0 := by
      intro i
      by_cases h0 : W 0 0 = 0
      · rcases hp with h | h
        · exact absurd h0 (by simpa [hW] using h)
        · rw [h0, mul_zero]; exact h _
      · simp only [hm]; field_simp
    obtain ⟨τ, L', U', h1, h2, h3, h4⟩ := ih (fun i j => W i.succ j.succ - m i * W 0 j.succ)
    refine ⟨Equiv.Perm.decomposeFin.symm (0, τ) |>.trans (Equiv.swap 0 p),
      fun i j => Fin.cases (Fin.cases 1 (fun _ => 0) j) (fun i => Fin.cases (m (τ i)) (fun j => L' i j) j) i,
      fun i j => Fin.cases (W 0 j) (fun i => Fin.cases 0 (fun j => U' i j) j) i, ?_, ?_, ?_, ?_⟩
    · intro i j
      refine Fin.cases ?_ (fun i => ?_) i <;> refine Fin.cases ?_ (fun j => ?_) j
      · intro h; exact absurd h (lt_irrefl _)
      · intro _; rfl
      · intro h; exact absurd h (Fin.not_lt_zero _)
      · intro h; exact h1 i j (by simpa using h)
    · intro i
      refine Fin.cases rfl (fun i => ?_) i
      exact h2 i
    · intro i j
      refine Fin.cases ?_ (fun i => ?_) i <;> refine Fin.cases ?_ (fun j => ?_) j
      · intro h; exact absurd h (lt_irrefl _)
      · intro h; exact absurd h (Fin.not_lt_zero _)
      · intro _; rfl
      · intro h; exact h3 i j (by simpa using h)
    · intro i j
      rw [Fin.sum_univ_succ]
      refine Fin.cases ?_ (fun i => ?_) i
      · simp [hW]
      · have hs : M ((Equiv.Perm.decomposeFin.symm (0, τ) |>.trans (Equiv.swap 0 p)) i.succ) j = W (τ i).succ j := by
          simp [hW]
        rw [hs]
        refine Fin.cases ?_ (fun j => ?_) j
        · simp [hcol]
        · have := h4 i j
          simp only [Fin.cases_zero, Fin.cases_succ]
          rw [← this]; ring

theorem exists_lu {n : ℕ} (M : Mat ℝ n) : ∃ q : Mat ℝ n × Mat ℝ n × Mat ℝ n, IsLU M q.1 q.2.1 q.2.2 := by
  obtain ⟨σ, L, U, h1, h2, h3, h4⟩ := exists_plu n M
  refine ⟨(L, U, fun i j => if j = σ i then 1 else 0), ?_, ?_, h1, h2, h3⟩
  · ext i j
    rw [Matrix.mul_assoc, Matrix.mul_apply]
    simp only [Matrix.transpose_apply, Matrix.of_apply, Matrix.mul_apply, ite_mul, one_mul, zero_mul]
    rw [Finset.sum_eq_single (σ.symm i)]
    · simp [← h4]
    · intro b _ hb
      rw [if_neg]
      rintro rfl
      exact hb (by simp)
    · simp
  · ext i j
    rw [Matrix.mul_apply]
    simp only [Matrix.transpose_apply, Matrix.of_apply, ite_mul, one_mul, zero_mul]
    rw [Finset.sum_eq_single (σ.symm i)]
    · simp [Matrix.one_apply, eq_comm]
    · intro b _ hb
      rw [if_neg]
      rintro rfl
      exact hb (by simp)
    · simp

/-- the exact `lu` always succeeds -/
theorem laReal_lu_some {n : ℕ} (M : Mat ℝ n) : ∃ q, laReal.lu M = some q := by
  unfold laReal
  simp only
  rw [dif_pos (exists_lu M)]
  exact ⟨_, rfl⟩

end Verif
