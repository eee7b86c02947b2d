import Verif.Proofs.LegacyLoop
import Verif.Properties.Hooi
import Verif.Proofs.Laplacian

/-! The computations of `alsTucker` and `alsTucker_DT`. -/

namespace Model

open Finset Function

variable {N : ℕ} {dims rk : Fin N → ℕ} {V : Tensor ℝ} {W : List (Tensor ℝ)}

/-- The shapes of the variables of the Tucker drivers. -/
structure TuckInv (dims rk : Fin N → ℕ) (V : Tensor ℝ) (s : TuckState) : Prop where
  W : TuckShaped dims rk V s.W
  core : s.core.lens = List.ofFn rk
  prev : s.corePrev.lens = List.ofFn rk

/-- `C` is the core belonging to the factors `W`. -/
def IsCore (dims rk : Fin N → ℕ) (V : Tensor ℝ) (W : List (Tensor ℝ)) (C : Tensor ℝ) : Prop :=
  C.lens = List.ofFn rk ∧ ∀ z : Fin N → ℕ, (∀ j, z j < rk j) → arr C N z = Spec.multiTTM dims (arr V N) (mats W) ∅ z

theorem IsCore.norm {C : Tensor ℝ} (h : IsCore dims rk V W C) : norm2 C = Real.sqrt (Spec.coreNormSq dims rk (arr V N) (mats W)) := by
  rw [norm2, sqNorm_eq h.1]
  congr 1
  exact sum_congr rfl fun z hz => by rw [h.2 z (Spec.mem_Box.1 hz)]

/-- Extend a function of modes to labels. -/
def onLab (f : Fin N → ℕ) (l : Label) : ℕ := if h : (decode l).toNat < N then f ⟨(decode l).toNat, h⟩ else 0

theorem onLab_letter (hN : N ≤ 31) (f : Fin N → ℕ) (j : Fin N) : onLab f (letter j.1) = f j := by
  have : (decode (letter j.1)).toNat = j.1 := by rw [decode_letter (by omega)]; simp
  unfold onLab
  rw [dif_pos (by rw [this]; exact j.2)]
  congr 1
  exact Fin.ext this

theorem allLetters_onLab (hN : N ≤ 31) (f : Fin N → ℕ) : (allLetters N).map (onLab f) = List.ofFn f := by
  rw [allLetters_ofFn, List.map_ofFn]
  congr 1
  funext j
  exact onLab_letter hN f j

theorem keepCore_ok (hN : N ≤ 31) {s : TuckState} (h : TuckInv dims rk V s) :
    ∃ s', keepCore s = .ok s' ∧ TuckInv dims rk V s' ∧ s'.W = s.W ∧ s'.core = s.core ∧ norm2 s'.corePrev = norm2 s.core := by
  have hl : s.core.lens.length = N := by rw [h.core]; simp
  obtain ⟨P, p1, _, p2, p3⟩ := einsum_nosum (d := onLab rk) (sc := allLetters N) (ops := [(s.core, allLetters N)])
    (by simp [h.core, allLetters_onLab hN]) (by simp)
  rw [allLetters_onLab hN] at p1 p2
  refine ⟨{ s with corePrev := P }, ?_, ⟨h.W, h.core, p2⟩, rfl, rfl, ?_⟩
  · unfold keepCore
    simp only [hl, h.prev, p1, bind, Except.bind]
    rfl
  · simp only [norm2]
    rw [sqNorm_eq p2, sqNorm_eq h.core]
    congr 1
    refine sum_congr rfl fun z hz => ?_
    have := p3 (onLab z) (by
      intro l hl
      rw [allLetters_ofFn, List.mem_ofFn] at hl
      obtain ⟨j, rfl⟩ := hl
      rw [onLab_letter hN, onLab_letter hN]
      exact Spec.mem_Box.1 hz j)
    simp only [List.map_cons, List.map_nil, List.prod_cons, List.prod_nil, mul_one, allLetters_onLab hN] at this
    unfold arr
    rw [this]

end Model
