import Verif.Proofs.RoundPP
import Verif.Properties.PP
import Verif.Properties.Round
import Verif.Proofs.PPDriverTuck
import Verif.Proofs.PPDriverCP

/-! # C82: rounding errors of pairwise perturbation for CP -/

namespace Spec

open Finset Function

variable {N : ℕ} {dims : Fin N → ℕ} {R : ℕ}

theorem pp_err {V : (Fin N → ℕ) → ℝ} {W0 W : Fin N → ℕ → ℕ → ℝ} {c v : ℝ} {i : Fin N} {x r : ℕ}
    (h : |v - ppMttkrp dims V W0 (away W0 W) i x r| ≤ c * ppMttkrp dims (absArr V) (absMats W0) (absMats (away W0 W)) i x r) :
    |v - mttkrp dims V W i x r| ≤ ppErr dims V W0 W c i x r := by
  have hW : W = displace W0 (away W0 W) := by
    funext j y s
    unfold displace away
    ring
  have h1 : mttkrp dims V W i x r = ppMttkrp dims V W0 (away W0 W) i x r +
      ∑ S ∈ (univ.erase i).powerset with 2 ≤ S.card, mttkrp dims V (mix W0 (away W0 W) S) i x r := by
    rw [← mttkrp_displace_eq, ← hW]
  rw [h1, ← sub_sub]
  unfold ppErr
  refine (abs_sub _ _).trans (add_le_add h ((abs_sum_le_sum_abs _ _).trans (sum_le_sum fun S _ => ?_)))
  refine (Model.abs_mttkrp_le dims V _ i x r).trans (le_of_eq ?_)
  congr 1
  funext j y s
  unfold absMats mix
  split_ifs <;> rfl

theorem RoundedPPRun.als {lam : ℝ} {solve : Solver ℝ} {V : (Fin N → ℕ) → ℝ} {W0 : Fin N → ℕ → ℕ → ℝ} {a b c cD : ℝ} (ha : 0 ≤ a)
    (hD : 0 ≤ cD) {l : List (Fin N)} {st st' : PPPhase N} (h : RoundedPPRun dims R lam solve V W0 a b c cD l st st')
    (ht : Tracks dims R W0 cD st) :
    PPAlsRun dims R lam solve V W0 ((1 + a) * (1 + cD) - 1) b l st.W st'.W ∧ Tracks dims R W0 cD st' := by
  induction h with
  | nil st => exact ⟨.nil _, ht⟩
  | @cons i l st st' st'' h1 h2 ih =>
    obtain ⟨g1, g2⟩ := ih (h1.tracks ht)
    obtain ⟨M, S, _, _, m1, m2, _, m4, _⟩ := h1
    refine ⟨?_, g2⟩
    rw [m4] at g1
    refine .cons (fun x hx r hr => pp_err (pp_tracks (by linarith) hD (fun j y hy => ht j y hy r hr) ?_)) m2 g1
    rw [add_sub_cancel_left]
    exact m1 x hx r hr

end Spec

namespace Properties

open Model Finset

variable {N B : ℕ} {eps : ℝ} {P : Arith} {dims : Fin N → ℕ} {R : ℕ} {V : Tensor ℝ}

/-- **C82 (operators and right-hand sides).** Orders 3 to 9, edge lengths and rank at most `B`, floating-point contractions with unit
roundoff `eps` in any order: the operators of a PP phase are built; the one for mode `i` is within `errBound` of `N - 1` contractions of
the exact MTTKRP, the pairwise one within `errBound` of `N - 2`, entry by entry relative to the same expression of the absolute values;
and for any displacements the right-hand side of mode `i` is within `errBound` of `2(N-1)` operations of the exact first-order
expression. -/
theorem C82_operators (he : 0 ≤ eps) (hP : FlEval eps P) (h3 : 3 ≤ N) (h9 : N ≤ 9) (hB : 1 ≤ B) (hd : ∀ j, dims j ≤ B) (hR : R ≤ B)
    (same : Bool) {Winit : List (Tensor ℝ)} (hS : Shaped dims R V Winit) :
    ∃ ops, ppOperatorsR P same N V Winit = .ok ops ∧
      (∀ i : Fin N, ∃ T, ops.lookup (keyWithout N fun m => decide (m = i.1)) = some T ∧ T.lens = [dims i, R] ∧
        ∀ x < dims i, ∀ r < R, |T.val [x, r] - Spec.mttkrp dims (arr V N) (mats Winit) i x r| ≤ errBound eps B (N - 1) *
          Spec.mttkrp dims (Spec.absArr (arr V N)) (Spec.absMats (mats Winit)) i x r) ∧
      (∀ i j : Fin N, i < j → ∃ T, ops.lookup (keyWithout N fun m => decide (m = i.1 ∨ m = j.1)) = some T ∧
        T.lens = [dims i, dims j, R] ∧ ∀ x < dims i, ∀ y < dims j, ∀ r < R,
          |T.val [x, y, r] - Spec.pairOp dims (arr V N) (mats Winit) i j x y r| ≤ errBound eps B (N - 2) *
            Spec.pairOp dims (Spec.absArr (arr V N)) (Spec.absMats (mats Winit)) i j x y r) ∧
      ∀ dW : List (Tensor ℝ), Shaped dims R V dW → ∀ i : Fin N, ∃ M, ppMR P N ops dW i.1 = .ok M ∧ M.lens = [dims i, R] ∧
        ∀ x < dims i, ∀ r < R,
          |mat M x r - Spec.ppMttkrp dims (arr V N) (mats Winit) (mats dW) i x r| ≤ errBound eps B (2 * (N - 1)) *
            Spec.ppMttkrp dims (Spec.absArr (arr V N)) (Spec.absMats (mats Winit)) (Spec.absMats (mats dW)) i x r := by
  have hu := errU_nonneg he B
  have hRd := hP.roundOk he B
  obtain ⟨ops, o1, o2⟩ := ppOperatorsR_ok hRd hu hB h3 h9 hd hR same hS
  refine ⟨ops, o1, fun i => ?_, fun i j hij => ?_, fun dW hD i => ?_⟩
  · obtain ⟨T, hT, hG⟩ := o2.1 i
    unfold PPNear at hG
    rw [compl_ex1, ex1_length] at hG
    obtain ⟨a, b⟩ := near_single hG
    refine ⟨T, by rw [keyWithout_one (by omega)]; exact hT, a, fun x hx r hr => ?_⟩
    rw [← errBound_eq]
    exact (b x hx r hr).2
  · obtain ⟨T, hT, hG⟩ := o2.2 i j hij
    unfold PPNear at hG
    rw [compl_ex2 hij, ex2_length hij] at hG
    have hl := hG.lens
    obtain ⟨E, A, _, _, v1, v2, v3⟩ := hG
    obtain ⟨e1, e2⟩ := valid_pair hij.ne v1
    obtain ⟨a1, a2⟩ := valid_pair hij.ne v2
    refine ⟨T, by rw [keyWithout_two (by omega) hij]; exact hT, by simpa using hl, fun x hx y hy r hr => ?_⟩
    rw [← errBound_eq, ← e2 x hx y hy r hr, ← a2 x hx y hy r hr]
    exact (v3.2.2 _).2
  · obtain ⟨M, m1, m2, ME, MA, _, _, m5, m6⟩ := ppMR_ok hRd hu hB hd hR o2 hD i
    refine ⟨M, m1, m2, fun x hx r hr => ?_⟩
    rw [← errBound_eq, ← (m6 x hx r hr).1, ← (m6 x hx r hr).2]
    exact (m5.2.2 _).2

/-- **C82 (a sweep).** From any factors, gradients and displacements of the right shapes and with any solver, the updates of a sweep of
`alsCP_PP_sub` with `ratio_step = 1` succeed; each has the stated errors relative to the first-order expression at the displacements at
that moment, and records the new displacement with one rounding. -/
theorem C82_sweep (he : 0 ≤ eps) (hP : FlEval eps P) (h3 : 3 ≤ N) (h9 : N ≤ 9) (hB : 1 ≤ B) (hd : ∀ j, dims j ≤ B) (hR : R ≤ B)
    (same : Bool) {Winit : List (Tensor ℝ)} (hS : Shaped dims R V Winit) {s : PPState ℝ} (hs : PPShaped dims R V s) (lam : ℝ)
    (solve : Spec.Solver ℝ) :
    ∃ ops s', ppOperatorsR P same N V Winit = .ok ops ∧ ppUpdatesR P N R lam solve ops Winit s = .ok s' ∧ PPShaped dims R V s' ∧
      Spec.RoundedPPRun dims R lam solve (arr V N) (mats Winit) (errBound eps B (2 * (N - 1))) (errBound eps B N)
        (errBound eps B (2 * N - 1)) (errBound eps B 1) (List.finRange N) (ppPhase N s) (ppPhase N s') := by
  have hu := errU_nonneg he B
  have hRd := hP.roundOk he B
  obtain ⟨ops, o1, o2⟩ := ppOperatorsR_ok hRd hu hB h3 h9 hd hR same hS
  obtain ⟨s', a1, a2, a3⟩ := ppUpdatesR_ok hRd hu hB h3 hd hR o2 hS hs lam solve
  refine ⟨ops, s', o1, a1, a2, ?_⟩
  have e1 : (1 + eps) ^ (B + 1) - 1 = errBound eps B 1 := by unfold errBound; rw [mul_one]
  rw [errBound_eq, errBound_eq, errBound_eq, e1] at a3
  exact a3

/-- **C82 (the first sweep of a phase).** The phase starts at the reference factors with zero displacements.  The updates of the first
sweep are then ALS updates of the modes in order at the current factors, with right-hand sides off from the exact MTTKRP by at most
rounding errors (`errBound` of `2N - 1` operations) and the neglected terms with two or more displacements; and the recorded
displacements are the distances to the reference factors up to one rounding. -/
theorem C82_first_sweep (he : 0 ≤ eps) (hP : FlEval eps P) (h3 : 3 ≤ N) (h9 : N ≤ 9) (hB : 1 ≤ B) (hd : ∀ j, dims j ≤ B) (hR : R ≤ B)
    (same : Bool) {Winit G dW : List (Tensor ℝ)} (hS : Shaped dims R V Winit) (hG : G.length = N) (hD : Shaped dims R V dW)
    (hD0 : ∀ j : Fin N, ∀ x < dims j, ∀ r < R, mats dW j x r = 0) (lam : ℝ) (solve : Spec.Solver ℝ) :
    ∃ ops s', ppOperatorsR P same N V Winit = .ok ops ∧ ppUpdatesR P N R lam solve ops Winit ⟨Winit, G, dW⟩ = .ok s' ∧
      Spec.PPAlsRun dims R lam solve (arr V N) (mats Winit) (errBound eps B (2 * N - 1)) (errBound eps B N) (List.finRange N)
        (mats Winit) (mats s'.W) ∧
      ∀ j : Fin N, ∀ y < dims j, ∀ r < R, |mats s'.dW j y r - (mats s'.W j y r - mats Winit j y r)| ≤
        errBound eps B 1 * |mats s'.W j y r - mats Winit j y r| := by
  obtain ⟨ops, s', h1, h2, _, h4⟩ := C82_sweep he hP h3 h9 hB hd hR same hS (s := ⟨Winit, G, dW⟩) ⟨hS, hG, hD⟩ lam solve
  have hpos : ∀ k, 0 ≤ errBound eps B k := fun k => sub_nonneg.2 (one_le_pow₀ (by linarith))
  obtain ⟨g1, g2⟩ := Spec.RoundedPPRun.als (hpos _) (hpos _) h4 (by
    intro j y hy r hr
    change |mats dW j y r - (mats Winit j y r - mats Winit j y r)| ≤ _ * |mats Winit j y r - mats Winit j y r|
    rw [hD0 j y hy r hr]
    simp)
  refine ⟨ops, s', h1, h2, ?_, g2⟩
  have e : (1 + errBound eps B (2 * (N - 1))) * (1 + errBound eps B 1) - 1 = errBound eps B (2 * N - 1) := by
    unfold errBound
    rw [add_sub_cancel, add_sub_cancel, ← pow_add, ← mul_add, show 2 * (N - 1) + 1 = 2 * N - 1 by omega]
  rw [e] at g1
  exact g1

/-! Non-vacuity -/

example := C82_operators (by positivity) exFl (by norm_num) (by norm_num) (B := 4) (by norm_num) (by decide) (by norm_num) true exShapedR
example (lam : ℝ) (solve : Spec.Solver ℝ) := C82_sweep (by positivity) exFl (by norm_num) (by norm_num) (B := 4) (by norm_num) (by decide)
  (by norm_num) true exShapedR (s := ⟨exFacR.W, exFacR.G, exFacR.W⟩) ⟨exShapedR, rfl, exShapedR⟩ lam solve
example (lam : ℝ) (solve : Spec.Solver ℝ) := C82_first_sweep (by positivity) exFl (by norm_num) (by norm_num) (B := 4) (by norm_num)
  (by decide) (by norm_num) false exShapedR (G := exFacR.G) rfl (zeros_shape exShapedR) (fun j x _ r _ => tzeros_mats j x r) lam solve

end Properties
