import Verif.Proofs.KhatriRao
import Mathlib.Tactic.FinCases

/-! # C01, C02, C03: the direct MTTKRP -/

namespace Properties

open Model

variable {K : Type} [CommSemiring K] {N : ℕ}

/-- **C01.** For every order 2..10, every uniform edge length, every rank, every tensor and factors and every mode, the
direct contraction of `CPSimpleOptimizer::step` runs without fault and returns the MTTKRP. -/
theorem C01_direct_mttkrp_exact (h2 : 2 ≤ N) (hN : N ≤ 10) {s R : ℕ} {V : Tensor K}
    {W : List (Tensor K)} (hS : Shaped (fun _ : Fin N => s) R V W) (i : Fin N) :
    ∃ M, simpleM N V W i = .ok M ∧ M.lens = [s, R] ∧ ∀ x < s, ∀ r < R,
      mat M x r = Spec.mttkrp (fun _ => s) (arr V N) (mats W) i x r := by
  obtain ⟨M, h1, _, h3⟩ := simpleM_ok h2 hN hS i
  exact ⟨M, h1, h3⟩

/-- **C02 (violated).** As soon as two modes have different lengths, the direct MTTKRP aborts, for every
mode, every content and every order up to 31. -/
theorem C02_unequal_lengths_abort (hN : N ≤ 31) {dims : Fin N → ℕ} {R : ℕ} {V : Tensor K}
    {W : List (Tensor K)} (hS : Shaped dims R V W) (i : Fin N) (hne : ∃ a b, dims a ≠ dims b) :
    simpleM N V W i = .error .abort :=
  simpleM_abort hN hS i hne

/-- C01 and C02 together: for orders 2..10 the direct MTTKRP succeeds exactly on uniform shapes. -/
theorem C02_succeeds_iff_uniform (h2 : 2 ≤ N) (hN : N ≤ 10) {dims : Fin N → ℕ} {R : ℕ} {V : Tensor K}
    {W : List (Tensor K)} (hS : Shaped dims R V W) (i : Fin N) :
    (∃ M, simpleM N V W i = .ok M) ↔ ∀ a b, dims a = dims b := by
  constructor
  · rintro ⟨M, hM⟩ a b
    by_contra h
    rw [simpleM_abort (by omega) hS i ⟨a, b, h⟩] at hM
    cases hM
  · intro h
    have : dims = fun _ => dims i := funext fun a => h a i
    rw [this] at hS
    obtain ⟨M, hM, _⟩ := simpleM_ok h2 hN hS i
    exact ⟨M, hM⟩

/-- **C03 (violated).** For every order 11..31 the rank label coincides with the label of mode 10 and the
contraction aborts on every uniform shape whose edge length differs from the rank. -/
theorem C03_label_collision (h11 : 11 ≤ N) (hN : N ≤ 31) {s R : ℕ} {V : Tensor K}
    {W : List (Tensor K)} (hS : Shaped (fun _ : Fin N => s) R V W) (i : Fin N) (hRs : R ≠ s) :
    lk = letter 10 ∧ simpleM N V W i = .error .abort :=
  ⟨by decide, simpleM_collision h11 hN hS i hRs⟩

/-! Non-vacuity: concrete well-shaped problems. -/

/-- A 2×2×2 tensor with distinct entries and three 2×3 factors. -/
example : Shaped (K := ℤ) (fun _ : Fin 3 => 2) 3
    ⟨[2, 2, 2], fun idx => 1 + idx.getD 0 0 + 2 * idx.getD 1 0 + 4 * idx.getD 2 0⟩
    [⟨[2, 3], fun idx => idx.getD 0 0⟩, ⟨[2, 3], fun idx => idx.getD 1 0⟩, ⟨[2, 3], fun _ => 1⟩] where
  lensV := rfl
  count := rfl
  lensW := by
    intro j M h
    fin_cases j <;> (simp at h; subst h; rfl)

/-- An unequal shape. -/
example : Shaped (K := ℤ) (fun j : Fin 3 => j.1 + 2) 2
    ⟨[2, 3, 4], fun idx => idx.getD 0 0⟩
    [⟨[2, 2], fun _ => 1⟩, ⟨[3, 2], fun _ => 1⟩, ⟨[4, 2], fun _ => 1⟩] where
  lensV := rfl
  count := rfl
  lensW := by
    intro j M h
    fin_cases j <;> (simp at h; subst h; rfl)

/-- An order-11 shape. -/
example : Shaped (K := ℤ) (fun _ : Fin 11 => 2) 3
    ⟨List.replicate 11 2, fun _ => 1⟩ (List.replicate 11 ⟨[2, 3], fun _ => 1⟩) where
  lensV := rfl
  count := rfl
  lensW := by
    intro j M h
    have := List.mem_of_getElem? h
    simp at this
    subst this; rfl

end Properties
