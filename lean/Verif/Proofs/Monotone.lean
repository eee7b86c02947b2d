import Verif.Proofs.Solvable

namespace Spec

open Finset

variable {K : Type*} {N : ℕ} [Field K] [LinearOrder K] [IsStrictOrderedRing K]

variable {dims : Fin N → ℕ} {R : ℕ} {V : (Fin N → ℕ) → K} {lam : K} {solve : Solver K}

theorem Solves.congr {n R : ℕ} {X X' S M M' : ℕ → ℕ → K} (h : Solves n R X S M)
    (hX : ∀ x < n, ∀ r < R, X' x r = X x r) (hM : ∀ x < n, ∀ r < R, M' x r = M x r) :
    Solves n R X' S M' := by
  intro x hx r hr
  rw [hM x hx r hr, ← h x hx r hr]
  exact sum_congr rfl fun k hk => by rw [hX x hx k (mem_range.1 hk)]

theorem clip_of {n R x r : ℕ} {f : ℕ → ℕ → K} (hx : x < n) (hr : r < R) : clip n R f x r = f x r := by
  simp [clip, hx, hr]

/-- With an adequate solver, every ALS factor solves its normal equations. -/
theorem alsFactor_solves (h : (0 ≤ lam ∧ SolvesConsistent solve) ∨ (0 < lam ∧ SolvesPosDef solve))
    (W : Fin N → ℕ → ℕ → K) (i : Fin N) :
    Solves (dims i) R (alsFactor dims R lam solve V W i) (normalMat dims R lam W i) (mttkrp dims V W i) := by
  rcases Nat.eq_zero_or_pos (dims i) with hd | hd
  · intro x hx; omega
  have key : Solves (dims i) R (solve (dims i) R (clip (dims i) R (mttkrp dims V W i)) (normalMat dims R lam W i))
      (normalMat dims R lam W i) (clip (dims i) R (mttkrp dims V W i)) := by
    rcases h with ⟨hl, hs⟩ | ⟨hl, hs⟩
    · obtain ⟨X, hX⟩ := normal_solvable (dims := dims) (R := R) (V := V) (W := W) (i := i) hl
      exact hs _ _ _ _ ⟨X, hX.congr (fun _ _ _ _ => rfl) fun x hx r hr => clip_of hx hr⟩
    · exact hs _ _ _ _ (normalMat_posDef hl hd)
  exact key.congr (fun x hx r hr => clip_of hx hr) fun x hx r hr => (clip_of hx hr).symm

theorem alsRun_mono (hl : 0 ≤ lam)
    (h : ∀ W i, Solves (dims i) R (alsFactor dims R lam solve V W i) (normalMat dims R lam W i) (mttkrp dims V W i))
    (modes : List (Fin N)) (st : AlsState N K) :
    fullObj2 dims R lam V (alsRun dims R lam solve V modes st).W ≤ fullObj2 dims R lam V st.W := by
  induction modes generalizing st with
  | nil => exact le_refl _
  | cons i l ih => exact (ih _).trans (fullObj2_update_le hl (h st.W i))

end Spec
