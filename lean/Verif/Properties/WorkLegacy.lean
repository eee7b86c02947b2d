import Verif.Proofs.CostTuckerSums
import Verif.Properties.Work
import Verif.Properties.Hooi

/-! # C87: work of the legacy dimension trees (`alsCP_DT`, `alsTucker_DT`) and of `alsTucker`

A sweep of `alsCP_DT` or `alsTucker_DT` builds, for any order it can handle, every node of its dimension tree exactly once, so
that it contracts the input tensor exactly twice; a sweep of `alsTucker` contracts it once for every mode. -/

namespace Properties

open Model
open Spec (Tag Work termsOf countOf storedOf)
open Finset

variable {N : ℕ}

/-- **C87.** The recording copies compute what the modelled functions compute, whatever the tensor, the factors and the
sweep number, also when the computation fails. -/
theorem C87_same_results {K : Type} [CommRing K] (R : ℕ) (lam : K) (solve : Spec.Solver K) (V : Tensor K) (F : List (Tensor K))
    (f : Fac K) (k : Kern ℝ) (VT : Tensor ℝ) (clens : List ℕ) (W : List (Tensor ℝ)) (n : ℕ) (log : List Work) :
    (iterC (legacyUpdatesC N R lam solve V F) n f log).map Prod.fst = iterM (legacyUpdates N R lam solve V F) n f ∧
    (iterC (tuckSweepC k VT clens) n W log).map Prod.fst = iterM (tuckSweep k VT clens) n W ∧
    (tuckSweepDTC k VT clens W log).map Prod.fst = tuckSweepDT k VT clens W :=
  ⟨iterC_erases (fun s => legacyUpdatesC_erases N R lam solve V F s) n f log,
   iterC_erases (fun s => tuckSweepC_erases k VT clens s) n W log, tuckSweepDTC_erases k VT clens W log⟩

theorem Runs.iterC_ex {σ : Type} {step : σ → CM σ} {P : σ → Prop} {Q : List Work → Prop}
    (h : ∀ s, P s → ∃ s' w, Runs (step s) s' w ∧ P s' ∧ Q w) :
    ∀ (n : ℕ) (s : σ), P s → ∃ (s' : σ) (ws : List (List Work)), Runs (Model.iterC step n s) s' ws.flatten ∧ P s' ∧ ws.length = n ∧ ∀ w ∈ ws, Q w
  | 0, s, hs => ⟨s, [], Runs.pure s, hs, rfl, by simp⟩
  | n + 1, s, hs => by
    obtain ⟨s1, w1, h1, h2, h3⟩ := h s hs
    obtain ⟨s2, ws, h4, h5, h6, h7⟩ := Runs.iterC_ex h n s1 h2
    refine ⟨s2, w1 :: ws, Runs.bind h1 h4, h5, by simp [h6], ?_⟩
    intro w hw
    rcases List.mem_cons.1 hw with rfl | hw
    · exact h3
    · exact h7 w hw

theorem flatten_sum {μ : List Work → ℕ} (hμ : Model.Additive μ) {c : ℕ} : ∀ {ws : List (List Work)}, (∀ w ∈ ws, μ w = c) →
    μ ws.flatten = ws.length * c
  | [], _ => by simp [hμ.nil]
  | w :: ws, h => by
    rw [List.flatten_cons, hμ.app, h w (by simp), flatten_sum hμ fun w hw => h w (by simp [hw]), List.length_cons]
    ring

theorem flatten_le {μ : List Work → ℕ} (hμ : Model.Additive μ) {c : ℕ} : ∀ {ws : List (List Work)}, (∀ w ∈ ws, μ w ≤ c) →
    μ ws.flatten ≤ ws.length * c
  | [], _ => by simp [hμ.nil]
  | w :: ws, h => by
    rw [List.flatten_cons, hμ.app, List.length_cons]
    have h1 := h w (by simp)
    have h2 := flatten_le hμ fun w hw => h w (List.mem_cons_of_mem _ hw)
    rw [Nat.succ_mul]
    omega

theorem ivP_fin (dims : Fin N → ℕ) {a e : ℕ} (he : e < N) :
    ivP dims (a, e) = ∏ j ∈ univ.filter (fun j : Fin N => a ≤ j.1 ∧ j.1 ≤ e), dims j := by
  unfold ivP
  refine (Finset.prod_bij (fun j _ => j.1) ?_ ?_ ?_ ?_).symm
  · intro j hj
    simpa using hj
  · intro j _ j' _ h
    exact Fin.ext h
  · intro b hb
    rw [mem_Icc] at hb
    exact ⟨⟨b, by omega⟩, by simpa using hb, rfl⟩
  · intro j _
    exact (dimN_val dims j).symm

/-- **C87 (CP).** Order 4 or 6 to 31, any edge lengths, rank, tensor, factors, matrices `F` and solver: `m` sweeps of `alsCP_DT`
contract the input tensor exactly `2m` times, adding up `2 m R ∏ dims` products in these contractions; when no edge length is
below 2 everything else that is needed for the MTTKRPs adds up at most `2 R ∏ dims` products per sweep, and `8 R` times the
number of entries of the two halves of the modes; Gram matrices and gradients take `N R² Σ dims`. -/
theorem C87_cp_dt {K : Type} [CommRing K] (h4 : 4 ≤ N) (h5 : N ≠ 5) (hN : N ≤ 31) {dims : Fin N → ℕ} {R : ℕ} {V : Tensor K}
    (lam : K) (solve : Spec.Solver K) {F : List (Tensor K)} (hF : Shaped dims R V F) {f : Fac K} (hS : Shaped dims R V f.W)
    (m : ℕ) :
    ∃ f' w, iterC (legacyUpdatesC N R lam solve V F) m f [] = .ok (f', w) ∧
      iterM (legacyUpdates N R lam solve V F) m f = .ok f' ∧
      countOf .input w = m * 2 ∧ termsOf .input w = m * (2 * ((∏ j, dims j) * R)) ∧
      ((∀ j, 2 ≤ dims j) → termsOf .mttkrp w ≤ m * (R * (2 * ∏ j, dims j +
        8 * (∏ j ∈ univ.filter (fun j : Fin N => j.1 ≤ (N - 1) / 2), dims j +
          ∏ j ∈ univ.filter (fun j : Fin N => (N - 1) / 2 < j.1), dims j)))) ∧
      termsOf .update w = m * (N * ((∑ j, dims j) * (R * R))) := by
  obtain ⟨f', ws, h1, _, h3, h6⟩ := Runs.iterC_ex (step := legacyUpdatesC N R lam solve V F) (P := fun f => Shaped dims R V f.W)
    (Q := fun w => ∀ μ, Model.Additive μ → μ w = ∑ t ∈ below 0 (N - 1), μ (cpNodeW dims R t) + ∑ j ∈ range N, μ (modeW dims R j))
    (fun f hf => by
      obtain ⟨f', w, a1, a2, a3⟩ := legacyUpdatesC_runs h4 h5 hN lam solve hF hf
      exact ⟨f', w, a1, a2, a3⟩) m f hS
  refine ⟨f', ws.flatten, h1 [], h1.erase (iterC_erases (fun s => legacyUpdatesC_erases N R lam solve V F s) m f), ?_⟩
  rw [flatten_sum (additive_count .input) fun w hw => (legacy_sums h4 R (h6 w hw)).1,
    flatten_sum (additive_terms .input) fun w hw => (legacy_sums h4 R (h6 w hw)).2.1,
    flatten_sum (additive_terms .update) fun w hw => (legacy_sums h4 R (h6 w hw)).2.2.2, h3]
  refine ⟨rfl, rfl, fun hd => ?_, rfl⟩
  have := flatten_le (additive_terms .mttkrp) fun w hw => (legacy_sums h4 R (h6 w hw)).2.2.1 hd
  rw [h3, ivP_fin dims (by omega), ivP_fin dims (by omega)] at this
  refine le_trans this (le_of_eq ?_)
  congr 6
  · ext j; simp
  · ext j; simp only [mem_filter, mem_univ, true_and]; omega

/-- **C87 (CP, equal edge lengths).** The leading term of a sweep of `alsCP_DT` is `4 R s^N`, against `N R s^N` for the plain
optimizer (`C74_plain`): the products added up for the MTTKRPs of a sweep are at most
`4 R s^N + 8 R (s^⌈N/2⌉ + s^⌊N/2⌋)`. -/
theorem C87_cp_dt_equal {K : Type} [CommRing K] (h4 : 4 ≤ N) (h5 : N ≠ 5) (hN : N ≤ 31) {s R : ℕ} (hs : 2 ≤ s) {V : Tensor K}
    (lam : K) (solve : Spec.Solver K) {F : List (Tensor K)} (hF : Shaped (fun _ : Fin N => s) R V F) {f : Fac K}
    (hS : Shaped (fun _ : Fin N => s) R V f.W) (m : ℕ) :
    ∃ f' w, iterC (legacyUpdatesC N R lam solve V F) m f [] = .ok (f', w) ∧
      termsOf .input w + termsOf .mttkrp w ≤ m * (4 * (R * s ^ N) + 8 * (R * (s ^ ((N + 1) / 2) + s ^ (N / 2)))) := by
  obtain ⟨f', w, h1, _, _, h2, h3, _⟩ := C87_cp_dt h4 h5 hN lam solve hF hS m
  refine ⟨f', w, h1, ?_⟩
  have := h3 fun _ => hs
  rw [h2]
  simp only [prod_const, card_univ, Fintype.card_fin] at this ⊢
  have c1 : (univ.filter fun j : Fin N => j.1 ≤ (N - 1) / 2).card = (N + 1) / 2 := by
    have := card_ivSet (N := N) (n := (0, (N - 1) / 2)) (by simp) (by simp only; omega)
    rw [ivSet] at this
    simp only [Nat.zero_le, true_and] at this
    rw [this]
    omega
  have c2 : (univ.filter fun j : Fin N => (N - 1) / 2 < j.1).card = N / 2 := by
    have := card_ivSet (N := N) (n := ((N - 1) / 2 + 1, N - 1)) (by simp only; omega) (by simp only; omega)
    rw [ivSet] at this
    simp only at this
    rw [show (univ.filter fun j : Fin N => (N - 1) / 2 < j.1) =
      univ.filter fun j : Fin N => (N - 1) / 2 + 1 ≤ j.1 ∧ j.1 ≤ N - 1 by
        ext j; simp only [mem_filter, mem_univ, true_and]; omega, this]
    omega
  rw [c1, c2] at this
  calc _ ≤ m * (2 * (s ^ N * R)) + m * (R * (2 * s ^ N + 8 * (s ^ ((N + 1) / 2) + s ^ (N / 2)))) := by omega
    _ = _ := by ring

/-- **C87 (Tucker, plain).** Orders 2 to 10, any edge lengths and ranks that do not exceed them, any tensor and factors, any SVD
routine that returns a matrix of the requested shape: `m` sweeps of `alsTucker` contract the input tensor `N` times per sweep;
the numbers of products are exact: those of the first products, those of the other products (in the product number `k` for mode
`i`, the modes before `k` other than `i` already have their rank as length), and those of the Gram matrices. -/
theorem C87_tucker_plain (h2 : 2 ≤ N) (hN : N ≤ 10) {dims rk : Fin N → ℕ} (hr : ∀ j, rk j ≤ dims j) {V : Tensor ℝ}
    {W : List (Tensor ℝ)} (hS : TuckShaped dims rk V W) {k : Kern ℝ} (hk : SvdShape k) (m : ℕ) :
    ∃ W' w, iterC (tuckSweepC k V (List.ofFn rk)) m W [] = .ok (W', w) ∧
      iterM (tuckSweep k V (List.ofFn rk)) m W = .ok W' ∧
      countOf .input w = m * N ∧
      termsOf .input w = m * ((∏ j, dims j) * ((N - 1) * rk ⟨0, by omega⟩ + rk ⟨1, by omega⟩)) ∧
      termsOf .mttkrp w = m * ∑ i : Fin N, ∑ k : Fin N, (if k = i ∨ k.1 = (if i.1 = 0 then 1 else 0) then 0 else
        rk k * ∏ j, if k ≤ j ∨ j = i then dims j else rk j) ∧
      termsOf .update w = m * ∑ i, dims i * (dims i * ∏ j ∈ univ.erase i, rk j) := by
  obtain ⟨W', h1, _⟩ := Runs.iterC (step := tuckSweepC k V (List.ofFn rk))
    (P := fun _ W => TuckShaped dims rk V W)
    (w := fun _ => (List.range N).flatMap fun i => if h : i < N then tuckModeW dims rk ⟨i, h⟩ else [])
    (fun _ f hf => tuckSweepC_runs h2 hN hr hf hk) m 0 W hS
  refine ⟨W', _, h1 [], h1.erase (iterC_erases (fun s => tuckSweepC_erases k V (List.ofFn rk) s) m W), ?_⟩
  obtain ⟨a1, a2, a3, a4⟩ := tuckPlain_sums h2 dims rk
  generalize ((List.range N).flatMap fun i => if h : i < N then tuckModeW dims rk ⟨i, h⟩ else []) = w0 at a1 a2 a3 a4 ⊢
  rw [List.nil_append, ← List.range_eq_range', countOf_flatMap, termsOf_flatMap, termsOf_flatMap, termsOf_flatMap]
  rw [a1, a2, a3, a4]
  simp

/-- **C87 (Tucker, dimension tree).** Order 4 or 6 to 18, any edge lengths and ranks that do not exceed them: a sweep of
`alsTucker_DT` contracts the input tensor exactly twice, with the factor of the first mode of the second half and with that of the
first mode; Gram matrices and core are exact. -/
theorem C87_tucker_dt (h4 : 4 ≤ N) (h5 : N ≠ 5) (hN : N ≤ 18) {dims rk : Fin N → ℕ} (hr : ∀ j, rk j ≤ dims j) {V : Tensor ℝ}
    {W : List (Tensor ℝ)} (hS : TuckShaped dims rk V W) {k : Kern ℝ} (hk : SvdShape k) :
    ∃ W' C w, tuckSweepDTC k V (List.ofFn rk) W [] = .ok ((W', C), w) ∧ tuckSweepDT k V (List.ofFn rk) W = .ok (W', C) ∧
      TuckShaped dims rk V W' ∧
      countOf .input w = 2 ∧
      termsOf .input w = (∏ j, dims j) * (rk ⟨0, by omega⟩ + rk ⟨(N - 1) / 2 + 1, by omega⟩) ∧
      termsOf .update w = ∑ i, dims i * (dims i * ∏ j ∈ univ.erase i, rk j) + dims ⟨N - 1, by omega⟩ * ∏ j, rk j := by
  obtain ⟨W', C, w, h1, h2, h3⟩ := tuckSweepDTC_runs h4 h5 hN hr hS hk
  exact ⟨W', C, w, h1 [], h1.erase (tuckSweepDTC_erases k V (List.ofFn rk) W), h2, tuckDT_input h4 h3⟩

/-- **C87 (Tucker, dimension tree, equal lengths and ranks).** If the rank is at most half the edge length, a sweep adds up
`2 r s^N` products with the input tensor and at most `4 r² s^(N-1) + 2 N r^(N+1-⌈N/2⌉) s^⌈N/2⌉ + N r^(N-1) s³` in the other
products that lead to the tensors `Y`. -/
theorem C87_tucker_dt_equal (h4 : 4 ≤ N) (h5 : N ≠ 5) (hN : N ≤ 18) {s r : ℕ} (hr : 2 * r ≤ s) {V : Tensor ℝ}
    {W : List (Tensor ℝ)} (hS : TuckShaped (fun _ : Fin N => s) (fun _ => r) V W) {k : Kern ℝ} (hk : SvdShape k) :
    ∃ W' C w, tuckSweepDTC k V (List.ofFn fun _ : Fin N => r) W [] = .ok ((W', C), w) ∧
      termsOf .input w = 2 * (r * s ^ N) ∧
      termsOf .mttkrp w ≤ 4 * (r ^ 2 * s ^ (N - 1)) + 2 * N * (r ^ (N + 1 - (N + 1) / 2) * s ^ ((N + 1) / 2)) +
        N * (r ^ (N - 1) * s ^ 3) := by
  obtain ⟨W', C, w, h1, h2, h3⟩ := tuckSweepDTC_runs h4 h5 hN (fun _ => by omega) hS hk
  refine ⟨W', C, w, h1 [], ?_, tuckDT_mttkrp h4 hr h3⟩
  rw [(tuckDT_input h4 h3).2.1]
  simp only [prod_const, card_univ, Fintype.card_fin]
  ring

/-! ### the hypotheses are met -/

/-- Two sweeps of `alsCP_DT` on a 2×3×1×4 tensor, rank 2: four contractions with the input tensor. -/
example : ∃ f' w, iterC (legacyUpdatesC 4 2 (1 / 2) (fun _ _ M _ => M) exVR exFacR.W) 2 exFacR [] = .ok (f', w) ∧
    countOf .input w = 4 ∧ termsOf .input w = 192 := by
  obtain ⟨f', w, h1, _, h2, h3, _⟩ := C87_cp_dt (N := 4) (by omega) (by omega) (by omega) (1 / 2) (fun _ _ M _ => M)
    exShapedR (f := exFacR) exShapedR 2
  refine ⟨f', w, h1, h2, ?_⟩
  rw [h3]; decide

noncomputable def exHyperV : Tensor ℝ := ⟨[2, 2, 2, 2], fun idx => (idx.sum : ℝ)⟩
noncomputable def exHyperW : List (Tensor ℝ) := [⟨[2, 1], fun _ => 1⟩, ⟨[2, 1], fun _ => 1⟩, ⟨[2, 1], fun _ => 1⟩, ⟨[2, 1], fun _ => 1⟩]

theorem exHyperShaped : Shaped (N := 4) (fun _ => 2) 1 exHyperV exHyperW where
  lensV := rfl
  count := rfl
  lensW := by
    intro m M h
    fin_cases m <;> simp [exHyperW] at h <;> subst h <;> rfl

theorem exHyperTuck : TuckShaped (N := 4) (fun _ => 2) (fun _ => 1) exHyperV exHyperW where
  lensV := rfl
  count := rfl
  lensW := by
    intro m M h
    fin_cases m <;> simp [exHyperW] at h <;> subst h <;> rfl

example : ∃ f' w, iterC (legacyUpdatesC 4 1 (1 / 2) (fun _ _ M _ => M) exHyperV exHyperW) 3 ⟨exHyperW, exHyperW⟩ [] = .ok (f', w) ∧
    termsOf .input w + termsOf .mttkrp w ≤ 384 := by
  obtain ⟨f', w, h1, h2⟩ := C87_cp_dt_equal (N := 4) (by omega) (by omega) (by omega) (le_refl 2) (1 / 2) (fun _ _ M _ => M)
    exHyperShaped (f := ⟨exHyperW, exHyperW⟩) exHyperShaped 3
  exact ⟨f', w, h1, by simpa using h2⟩

/-- A 2×3×1×4 tensor with ranks 1, 2, 1, 3: five sweeps of `alsTucker`, one of `alsTucker_DT`. -/
example : ∃ (k : Kern ℝ) (W' : List (Tensor ℝ)) (w : List Work) (W'' : List (Tensor ℝ)) (C : Tensor ℝ) (w' : List Work),
    iterC (tuckSweepC k exTuckV [1, 2, 1, 3]) 5 exTuckW [] = .ok (W', w) ∧ countOf .input w = 20 ∧ termsOf .input w = 600 ∧
    tuckSweepDTC k exTuckV [1, 2, 1, 3] exTuckW [] = .ok ((W'', C), w') ∧ countOf .input w' = 2 ∧ termsOf .input w' = 48 := by
  obtain ⟨k, _, hk⟩ := exists_svdLeading
  obtain ⟨W', w, h1, _, h3, h4, _⟩ := C87_tucker_plain (N := 4) (by omega) (by omega) exTuckRank exTuckShaped hk 5
  obtain ⟨W'', C, w', g1, _, _, g3, g4, _⟩ := C87_tucker_dt (N := 4) (by omega) (by omega) (by omega) exTuckRank exTuckShaped hk
  refine ⟨k, W', w, W'', C, w', h1, h3, ?_, g1, g3, ?_⟩
  · rw [h4]; decide
  · rw [g4]; simp [Fin.prod_univ_four]

example : ∃ (k : Kern ℝ) (W' : List (Tensor ℝ)) (C : Tensor ℝ) (w : List Work),
    tuckSweepDTC k exHyperV [1, 1, 1, 1] exHyperW [] = .ok ((W', C), w) ∧ termsOf .input w = 32 ∧ termsOf .mttkrp w ≤ 96 := by
  obtain ⟨k, _, hk⟩ := exists_svdLeading
  obtain ⟨W', C, w, h1, h2, h3⟩ := C87_tucker_dt_equal (N := 4) (by omega) (by omega) (by omega) (s := 2) (r := 1) (by omega)
    exHyperTuck hk
  exact ⟨k, W', C, w, h1, by simpa using h2, by simpa using h3⟩

end Properties
