import Verif.Proofs.CostSimple
import Verif.Proofs.CostPP
import Verif.Properties.TuckLoop
import Verif.Properties.PPError

/-! # C74: how much work a sweep is

The functions of `Model/Cost.lean` compute what the optimizers compute and enter every index expression they evaluate in a list.
The theorems below say how many of these expressions read the input tensor, how many products the expressions add up, and
how many entries the intermediate tensors have. -/

namespace Properties

open Model Finset
open Spec (Tag Work termsOf storedOf countOf)

section Meaning

theorem sumOver_one (L : List Label) (d : Label → ℕ) (env : Label → ℕ) :
    sumOver (K := ℤ) (L.map fun l => (l, d l)) (fun _ => 1) env = ((L.map d).prod : ℕ) := by
  induction L generalizing env with
  | nil => simp [sumOver]
  | cons l L ih => simp [sumOver, ih]

theorem exists_env : ∀ (s : List Label) (idx : List ℕ), s.Nodup → s.length = idx.length → ∃ env : Label → ℕ, s.map env = idx
  | [], idx, _, hl => ⟨fun _ => 0, by rw [List.length_nil] at hl; rw [List.length_eq_zero_iff.1 hl.symm]; rfl⟩
  | l :: s, [], _, hl => by simp at hl
  | l :: s, x :: idx, hnd, hl => by
    rw [List.nodup_cons] at hnd
    obtain ⟨env, he⟩ := exists_env s idx hnd.2 (by simpa using hl)
    refine ⟨Function.update env l x, ?_⟩
    rw [List.map_cons, Function.update_self]
    congr 1
    rw [← he]
    apply List.map_congr_left
    intro a ha
    rw [Function.update_of_ne]
    rintro rfl
    exact hnd.1 ha

/-- **C74 (what is counted).** The number entered for an index expression is the number of products it adds up: if all entries of all
operands are 1, the entries of the result sum up to it — each of the entries of the result equals the number of products
added up for it. -/
theorem C74_terms_meaning {d : Label → ℕ} {sc : List Label} {ops : List (Tensor ℤ × List Label)} (hsc : sc.Nodup)
    (h : ∀ o ∈ ops, o.1.lens = o.2.map d) (hone : ∀ o ∈ ops, ∀ idx, o.1.val idx = 1) :
    ∃ T : Tensor ℤ, einsum (sc.map d) sc ops = .ok T ∧ ∃ c : ℕ, exprTerms (sc.map d) sc ops = (sc.map d).prod * c ∧
      ∀ idx, fits (sc.map d) idx = true → T.val idx = c := by
  refine ⟨⟨sc.map d, einsumVal (sc.map d) sc ops⟩, einsum_eq h, ((contracted sc ops).map d).prod, ?_, ?_⟩
  · rw [exprTerms_eq h]
    have hs : (sc ++ ops.flatMap fun o => o.2).toFinset = (sc ++ contracted sc ops).toFinset := by
      ext l
      simp only [List.mem_toFinset, List.mem_append, mem_contracted, List.mem_flatMap]
      tauto
    have hnd : (sc ++ contracted sc ops).Nodup := by
      rw [List.nodup_append]
      refine ⟨hsc, contracted_nodup sc ops, ?_⟩
      rintro a ha b hb rfl
      exact (mem_contracted.1 hb).2 ha
    rw [hs, List.prod_toFinset _ hnd, List.map_append, List.prod_append]
  · intro idx hidx
    show einsumVal (sc.map d) sc ops idx = _
    obtain ⟨env, rfl⟩ := exists_env sc idx hsc (by simpa using fits_length hidx)
    unfold einsumVal
    rw [if_pos ⟨hidx, map_bindIdx⟩]
    have hd : ((contracted sc ops).map fun l => (l, extent (ops.flatMap opTable) l)) =
        (contracted sc ops).map fun l => (l, d l) := by
      apply List.map_congr_left
      intro l hl
      rw [lookup_of_forall (opTable_of h) (opTable_fst h (mem_contracted.1 hl).1)]
    rw [hd]
    have hf : (fun env : Label → ℕ => (ops.map fun o => o.1.val (o.2.map env)).prod) = fun _ => (1 : ℤ) := by
      funext env
      apply List.prod_eq_one
      intro x hx
      obtain ⟨o, ho, rfl⟩ := List.mem_map.1 hx
      exact hone o ho _
    rw [hf, sumOver_one]

end Meaning

section Sweeps

variable {K : Type} [CommRing K] {N : ℕ}

/-- **C74 (the record does not change anything).** Whatever the arguments — also where the code aborts or leaves its arrays — the
recording versions of the plain, DT and MSDT steps, repeated any number of times, and of the set-up of a PP phase return
what the original functions return. -/
theorem C74_same_results (R : ℕ) (lam : K) (solve : Spec.Solver K) (V : Tensor K) (W : List (Tensor K)) (f : Fac K)
    (o : DTState) (o' : MSDTState) (same : Bool) (n : ℕ) (log : List Work) :
    (iterC (simpleStepC N R lam solve V) n f log).map Prod.fst = iterM (simpleStep N R lam solve V) n f ∧
    (iterC (dtStepC N R lam solve V) n (o, f) log).map Prod.fst = iterM (dtStep N R lam solve V) n (o, f) ∧
    (iterC (msdtStepC N R lam solve V) n (o', f) log).map Prod.fst = iterM (msdtStep N R lam solve V) n (o', f) ∧
    (ppOperatorsC same N V W log).map Prod.fst = ppOperators same N V W :=
  ⟨iterC_erases (fun s => simpleStepC_erases N R lam solve V s) n f log,
   iterC_erases (fun s => dtStepC_erases N R lam solve V s) n (o, f) log,
   iterC_erases (fun s => msdtStepC_erases N R lam solve V s) n (o', f) log,
   ppOperatorsC_erases same N V W log⟩

/-- The same for a PP sweep. -/
theorem C74_same_results_pp {F : Type} [Field F] [DecidableEq F] (R : ℕ) (lam ratio : F) (k : Kern F) (ops : Cache F)
    (Winit : List (Tensor F)) (s : PPState F) (log : List Work) :
    (ppUpdatesC N R lam ratio k ops Winit s log).map Prod.fst = ppUpdates N R lam ratio k ops Winit s :=
  ppUpdatesC_erases N R lam ratio k ops Winit s log

theorem Runs.iterC {σ : Type} {step : σ → CM σ} {P : ℕ → σ → Prop} {w : ℕ → List Work}
    (h : ∀ t s, P t s → ∃ s', Runs (step s) s' (w t) ∧ P (t + 1) s') :
    ∀ (n a : ℕ) (s : σ), P a s → ∃ s', Runs (Model.iterC step n s) s' ((List.range' a n).flatMap w) ∧ P (a + n) s'
  | 0, a, s, hs => ⟨s, Runs.pure s, hs⟩
  | n + 1, a, s, hs => by
    obtain ⟨s1, h1, h2⟩ := h a s hs
    obtain ⟨s2, h3, h4⟩ := Runs.iterC h n (a + 1) s1 h2
    refine ⟨s2, ?_, by rwa [show a + (n + 1) = a + 1 + n by omega]⟩
    rw [List.range'_succ, List.flatMap_cons]
    exact Runs.bind h1 h3

/-- **C74 (plain).** Orders 2 to 10, equal mode lengths `s`, any rank, tensor, factors and solver: `m` steps of the plain
optimizer contract the input tensor `N` times per sweep, adding up `N s^N R` products per sweep in these contractions alone;
the other contractions of the MTTKRPs add up `N R (s + Σ_{j<N-2} s^(N-1-j))` products and Gram matrices and gradients
`N² s R²`. -/
theorem C74_plain (h2 : 2 ≤ N) (hN : N ≤ 10) {s R : ℕ} {V : Tensor K} {f : Fac K}
    (hS : Shaped (fun _ : Fin N => s) R V f.W) (lam : K) (solve : Spec.Solver K) (m : ℕ) :
    ∃ f' w, iterC (simpleStepC N R lam solve V) m f [] = .ok (f', w) ∧
      iterM (simpleStep N R lam solve V) m f = .ok f' ∧
      countOf .input w = m * N ∧ termsOf .input w = m * (N * (s ^ N * R)) ∧
      termsOf .mttkrp w = m * (N * ((∑ j ∈ range (N - 2), s ^ (N - 1 - j)) * R + s * R)) ∧
      termsOf .update w = m * (N * (N * s * (R * R))) := by
  obtain ⟨f', h1, _⟩ := Runs.iterC (step := simpleStepC N R lam solve V)
    (P := fun _ f => Shaped (fun _ : Fin N => s) R V f.W) (w := fun _ => simpleW N s R)
    (fun _ f hf => simpleStepC_runs h2 hN hf lam solve) m 0 f hS
  refine ⟨f', _, h1 [], h1.erase (iterC_erases (fun s => simpleStepC_erases N R lam solve V s) m f), ?_⟩
  obtain ⟨a1, a2, a3, a4⟩ := simpleW_sums h2 s R
  rw [List.nil_append, ← List.range_eq_range', countOf_flatMap, termsOf_flatMap, termsOf_flatMap, termsOf_flatMap]
  simp [a1, a2, a3, a4]

/-- The left-out mode of step number `t` of the DT optimizer. -/
def dtLeft (h3 : 3 ≤ N) (t : ℕ) : Fin N := if t % 2 = 0 then ⟨N - 1, by omega⟩ else ⟨N - 2, by omega⟩

theorem dt_runs (h3 : 3 ≤ N) (hN : N ≤ 31) {dims : Fin N → ℕ} {R : ℕ} {V : Tensor K} {f : Fac K}
    (hS : Shaped dims R V f.W) (lam : K) (solve : Spec.Solver K) (n : ℕ) :
    ∃ o0 s, dtInit N = .ok o0 ∧ Runs (iterC (dtStepC N R lam solve V) n (o0, f)) s
        ((List.range n).flatMap fun t => stepW dims R (dtLeft h3 t) (if t % 2 = 0 then N - 1 else 1)) := by
  obtain ⟨o0, h0, hg, hf, hs, hl1, hl2⟩ := dtInit_ok h3 hN
  obtain ⟨s, h1, _⟩ := Runs.iterC (step := dtStepC N R lam solve V)
    (P := fun t (s : DTState × Fac K) => Shaped dims R V s.2.W ∧ DTGood s.1 N ∧ s.1.special = 0 ∧ s.1.left1 = N - 1 ∧
      s.1.left2 = N - 2 ∧ s.1.first = decide (t % 2 = 0))
    (w := fun t => stepW dims R (dtLeft h3 t) (if t % 2 = 0 then N - 1 else 1)) (by
      rintro t ⟨o, f⟩ ⟨a1, a2, a3, a4, a5, a6⟩
      simp only at a1 a2 a3 a4 a5 a6
      obtain ⟨f', b1, b2⟩ := dtStepC_runs h3 hN a2 a3 a1 lam solve
      refine ⟨({ o with first := !o.first }, f'), ?_, b2, ⟨a2.l1, a2.l2, a2.i1, a2.i2, a2.sp, a2.tree⟩, a3, a4, a5, ?_⟩
      · have e1 : (⟨o.left, a2.left_lt⟩ : Fin N) = dtLeft h3 t := by
          apply Fin.ext
          show o.left = (dtLeft h3 t).1
          unfold dtLeft DTState.left
          rw [a6]
          by_cases h : t % 2 = 0
          · simp [h, a4]
          · simp [h, a5]
        have e2 : dtCount N o.first = if t % 2 = 0 then N - 1 else 1 := by
          unfold dtCount
          rw [a6]
          by_cases h : t % 2 = 0 <;> simp [h]
        rw [e1, e2] at b1
        exact b1
      · show (!o.first) = _
        rw [a6]
        by_cases h : t % 2 = 0
        · simp [h, show (t + 1) % 2 = 1 by omega]
        · simp [h, show (t + 1) % 2 = 0 by omega]) n 0 (o0, f) ⟨hS, hg, hs, hl1, hl2, by simp [hf]⟩
  refine ⟨o0, s, h0, ?_⟩
  rw [← List.range_eq_range'] at h1
  exact h1

theorem firstProd_erase {dims : Fin N → ℕ} (hd : ∀ m, 0 < dims m) (left : Fin N) :
    firstProd dims left (N - 1) = ∏ j ∈ univ.erase left, dims j := by
  have h1 := firstProd_last dims left
  rw [← Finset.prod_erase_mul univ dims (mem_univ left)] at h1
  exact Nat.eq_of_mul_eq_mul_right (hd left) h1

theorem sum_two (g : ℕ → ℕ) (a b : ℕ) (h : ∀ t, g t = if t % 2 = 0 then a else b) (m : ℕ) :
    ∑ t ∈ range (2 * m), g t = m * (a + b) := by
  induction m with
  | zero => simp
  | succ m ih =>
    rw [show 2 * (m + 1) = 2 * m + 1 + 1 by ring, sum_range_succ, sum_range_succ, ih, h, h,
      if_pos (by omega), if_neg (by omega)]
    ring

/-- **C74 (DT).** Orders 3 to 31, any mode lengths `dims`, rank, tensor, factors and solver: from a fresh DT optimizer, `m` sweeps (two
steps each) contract the input tensor exactly twice per sweep, with `2 R ∏ dims` products; if all modes have length at least 2, the
remaining contractions of the tree add up at most `R (6 ∏_{j≠N-1} dims j + 2 ∏_{j≠N-2} dims j)` products per sweep; Gram
matrices and gradients take `N R² Σ dims`.  The factors are those of `2m` steps (hence `m` ALS sweeps, C05). -/
theorem C74_dt (h3 : 3 ≤ N) (hN : N ≤ 31) {dims : Fin N → ℕ} {R : ℕ} {V : Tensor K} {f : Fac K}
    (hS : Shaped dims R V f.W) (lam : K) (solve : Spec.Solver K) (m : ℕ) :
    ∃ o0 s w, dtInit N = .ok o0 ∧ iterC (dtStepC N R lam solve V) (2 * m) (o0, f) [] = .ok (s, w) ∧
      iterM (dtStep N R lam solve V) (2 * m) (o0, f) = .ok s ∧
      countOf .input w = m * 2 ∧ termsOf .input w = m * (2 * ((∏ j, dims j) * R)) ∧
      ((∀ j, 2 ≤ dims j) → termsOf .mttkrp w ≤ m * (6 * ((∏ j ∈ univ.erase ⟨N - 1, by omega⟩, dims j) * R) +
        2 * ((∏ j ∈ univ.erase ⟨N - 2, by omega⟩, dims j) * R))) ∧
      termsOf .update w = m * (N * ((∑ j, dims j) * (R * R))) := by
  obtain ⟨o0, s, h0, h1⟩ := dt_runs h3 hN hS lam solve (2 * m)
  refine ⟨o0, s, _, h0, h1 [], h1.erase (iterC_erases (fun s => dtStepC_erases N R lam solve V s) _ _), ?_⟩
  rw [List.nil_append, countOf_flatMap, termsOf_flatMap, termsOf_flatMap, termsOf_flatMap]
  refine ⟨?_, ?_, fun hd => ?_, ?_⟩
  · rw [sum_congr rfl fun t _ => (stepW_input dims R (dtLeft h3 t) _).2.1]
    simp
    ring
  · rw [sum_congr rfl fun t _ => (stepW_input dims R (dtLeft h3 t) _).1]
    simp
    ring
  · rw [sum_congr rfl fun t _ => stepW_mttkrp dims R (dtLeft h3 t) _]
    rw [← firstProd_erase (fun j => by have := hd j; omega), ← firstProd_erase (fun j => by have := hd j; omega)]
    refine le_trans (sum_le_sum (g := fun t => if t % 2 = 0 then 6 * (firstProd dims ⟨N - 1, by omega⟩ (N - 1) * R)
      else 2 * (firstProd dims ⟨N - 2, by omega⟩ (N - 1) * R)) fun t _ => ?_)
      (le_of_eq (sum_two _ _ _ (fun _ => rfl) m))
    by_cases h : t % 2 = 0
    · simp only [dtLeft, if_pos h]
      exact treeTerms_all hd _ (by omega) R
    · simp only [dtLeft, if_neg h]
      exact treeTerms_one hd _ (by omega) R
  · rw [sum_congr rfl fun t _ => stepW_update dims R (dtLeft h3 t) _]
    rw [sum_two _ ((N - 1) * ((∑ j, dims j) * (R * R))) (1 * ((∑ j, dims j) * (R * R)))
      (fun t => by split_ifs <;> rfl) m]
    rw [← add_mul, show N - 1 + 1 = N by omega]

/-- **C74 (memory of DT).** All modes of length at least 2: the intermediate tensors of one step — they are all kept
until the next step clears the map — have at most `4 R ∏_{j≠left} dims j` entries together, `left` the mode left out by the
step, after any number of earlier steps. -/
theorem C74_memory (h3 : 3 ≤ N) (hN : N ≤ 31) {dims : Fin N → ℕ} (hd : ∀ j, 2 ≤ dims j) {R : ℕ} {V : Tensor K} {f : Fac K}
    (hS : Shaped dims R V f.W) (lam : K) (solve : Spec.Solver K) (n : ℕ) :
    ∃ o0 s w s' w', dtInit N = .ok o0 ∧ iterC (dtStepC N R lam solve V) n (o0, f) [] = .ok (s, w) ∧
      iterC (dtStepC N R lam solve V) (n + 1) (o0, f) [] = .ok (s', w ++ w') ∧
      storedOf .input w' + storedOf .mttkrp w' ≤ 4 * ((∏ j ∈ univ.erase (dtLeft h3 n), dims j) * R) := by
  obtain ⟨o0, s, h0, h1⟩ := dt_runs h3 hN hS lam solve n
  obtain ⟨o0', s', h0', h1'⟩ := dt_runs h3 hN hS lam solve (n + 1)
  have : o0' = o0 := by rw [h0] at h0'; exact (Except.ok.inj h0').symm
  subst this
  refine ⟨o0', s, _, s', [n].flatMap fun t => stepW dims R (dtLeft h3 t) (if t % 2 = 0 then N - 1 else 1), h0, h1 [], ?_, ?_⟩
  · have := h1' []
    rw [List.range_succ, List.flatMap_append, ← List.append_assoc] at this
    exact this
  · simp only [List.flatMap_cons, List.flatMap_nil, List.append_nil]
    rw [← firstProd_erase (fun j => by have := hd j; omega)]
    exact stored_all hd _ (by omega) R (by split_ifs <;> omega)

/-- The left-out mode of step number `t` of the MSDT optimizer. -/
def msdtLeft (h3 : 3 ≤ N) (t : ℕ) : Fin N := ⟨N - 1 - t % N, by omega⟩

theorem msdt_runs (h3 : 3 ≤ N) (hN : N ≤ 31) {dims : Fin N → ℕ} {R : ℕ} {V : Tensor K} {f : Fac K}
    (hS : Shaped dims R V f.W) (lam : K) (solve : Spec.Solver K) (n : ℕ) :
    ∃ o0 s, msdtInit N = .ok o0 ∧ Runs (iterC (msdtStepC N R lam solve V) n (o0, f)) s
        ((List.range n).flatMap fun t => stepW dims R (msdtLeft h3 t) (N - 1)) := by
  obtain ⟨o0, h0, hl, hg⟩ := msdtInit_ok h3 hN
  obtain ⟨s, h1, _⟩ := Runs.iterC (step := msdtStepC N R lam solve V)
    (P := fun t (s : MSDTState × Fac K) => Shaped dims R V s.2.W ∧ GoodTree (N - 1) s.1.tree ∧
      s.1.left % N = (N - t % N) % N)
    (w := fun t => stepW dims R (msdtLeft h3 t) (N - 1)) (by
      rintro t ⟨o, f⟩ ⟨a1, a2, a3⟩
      simp only at a1 a2 a3
      obtain ⟨o', f', b1, b2, b3, b4⟩ := msdtStepC_runs h3 hN a2 a1 lam solve
      have ht : t % N < N := Nat.mod_lt _ (by omega)
      have e : (o.left + N - 1) % N = N - 1 - t % N := by
        rw [show o.left + N - 1 = o.left + (N - 1) by omega, Nat.add_mod, a3]
        by_cases h : t % N = 0
        · simp [h]
        · rw [Nat.mod_eq_of_lt (show N - t % N < N by omega), Nat.mod_eq_of_lt (show N - 1 < N by omega),
            show N - t % N + (N - 1) = (N - 1 - t % N) + N by omega, Nat.add_mod_right, Nat.mod_eq_of_lt (by omega)]
      refine ⟨(o', f'), ?_, b4, by simp only [b3]; exact a2, ?_⟩
      · have : (⟨(o.left + N - 1) % N, Nat.mod_lt _ (by omega)⟩ : Fin N) = msdtLeft h3 t := Fin.ext e
        rw [this] at b1
        exact b1
      · simp only [b2]
        rw [Nat.mod_mod, e]
        have h1 : (t + 1) % N = if t % N + 1 = N then 0 else t % N + 1 := by
          rw [Nat.add_mod, Nat.mod_eq_of_lt (show 1 < N by omega)]
          split_ifs with h
          · rw [h]; simp
          · exact Nat.mod_eq_of_lt (by omega)
        rw [h1]
        split_ifs with h
        · rw [show N - 1 - t % N = 0 by omega]; simp
        · rw [Nat.mod_eq_of_lt (show N - (t % N + 1) < N by omega)]; omega) n 0 (o0, f) ⟨hS, hg, by simp [hl]⟩
  refine ⟨o0, s, h0, ?_⟩
  rw [← List.range_eq_range'] at h1
  exact h1

/-- **C74 (memory of MSDT).** The same for the MSDT optimizer. -/
theorem C74_memory_msdt (h3 : 3 ≤ N) (hN : N ≤ 31) {dims : Fin N → ℕ} (hd : ∀ j, 2 ≤ dims j) {R : ℕ} {V : Tensor K} {f : Fac K}
    (hS : Shaped dims R V f.W) (lam : K) (solve : Spec.Solver K) (n : ℕ) :
    ∃ o0 s w s' w', msdtInit N = .ok o0 ∧ iterC (msdtStepC N R lam solve V) n (o0, f) [] = .ok (s, w) ∧
      iterC (msdtStepC N R lam solve V) (n + 1) (o0, f) [] = .ok (s', w ++ w') ∧
      storedOf .input w' + storedOf .mttkrp w' ≤ 4 * ((∏ j ∈ univ.erase (msdtLeft h3 n), dims j) * R) := by
  obtain ⟨o0, s, h0, h1⟩ := msdt_runs h3 hN hS lam solve n
  obtain ⟨o0', s', h0', h1'⟩ := msdt_runs h3 hN hS lam solve (n + 1)
  have : o0' = o0 := by rw [h0] at h0'; exact (Except.ok.inj h0').symm
  subst this
  refine ⟨o0', s, _, s', [n].flatMap fun t => stepW dims R (msdtLeft h3 t) (N - 1), h0, h1 [], ?_, ?_⟩
  · have := h1' []
    rw [List.range_succ, List.flatMap_append, ← List.append_assoc] at this
    exact this
  · simp only [List.flatMap_cons, List.flatMap_nil, List.append_nil]
    rw [← firstProd_erase (fun j => by have := hd j; omega)]
    exact stored_all hd _ (by omega) R (le_refl _)

theorem sum_msdt (h3 : 3 ≤ N) (g : Fin N → ℕ) (m : ℕ) : ∑ t ∈ range (N * m), g (msdtLeft h3 t) = m * ∑ i, g i := by
  induction m with
  | zero => simp
  | succ m ih =>
    rw [show N * (m + 1) = N * m + N by ring, sum_range_add, ih]
    have e : ∑ x ∈ range N, g (msdtLeft h3 (N * m + x)) = ∑ i, g i := by
      rw [sum_range]
      apply Finset.sum_nbij' (i := fun x : Fin N => (⟨N - 1 - x.1, by omega⟩ : Fin N))
        (j := fun x : Fin N => (⟨N - 1 - x.1, by omega⟩ : Fin N))
      · simp
      · simp
      · intro a _; apply Fin.ext; simp; omega
      · intro a _; apply Fin.ext; simp; omega
      · intro a _
        congr 1
        apply Fin.ext
        simp [msdtLeft, Nat.mod_eq_of_lt a.2]
    rw [e]
    ring

/-- **C74 (MSDT).** Orders 3 to 31: from a fresh MSDT optimizer, `N m` steps — `(N-1) m` ALS sweeps, C06 — contract the
input tensor exactly `N m` times: less than once and a half per sweep, `N/(N-1)` against 2 with DT and `N` with the plain
optimizer.  If all modes have length at least 2, the other contractions of the trees add up at most
`6 m R Σ_i ∏_{j≠i} dims j` products. -/
theorem C74_msdt (h3 : 3 ≤ N) (hN : N ≤ 31) {dims : Fin N → ℕ} {R : ℕ} {V : Tensor K} {f : Fac K}
    (hS : Shaped dims R V f.W) (lam : K) (solve : Spec.Solver K) (m : ℕ) :
    ∃ o0 s w, msdtInit N = .ok o0 ∧ iterC (msdtStepC N R lam solve V) (N * m) (o0, f) [] = .ok (s, w) ∧
      iterM (msdtStep N R lam solve V) (N * m) (o0, f) = .ok s ∧
      countOf .input w = N * m ∧ termsOf .input w = N * m * ((∏ j, dims j) * R) ∧
      ((∀ j, 2 ≤ dims j) → termsOf .mttkrp w ≤ m * (6 * ((∑ i, ∏ j ∈ univ.erase i, dims j) * R))) ∧
      termsOf .update w = N * m * ((N - 1) * ((∑ j, dims j) * (R * R))) := by
  obtain ⟨o0, s, h0, h1⟩ := msdt_runs h3 hN hS lam solve (N * m)
  refine ⟨o0, s, _, h0, h1 [], h1.erase (iterC_erases (fun s => msdtStepC_erases N R lam solve V s) _ _), ?_⟩
  rw [List.nil_append, countOf_flatMap, termsOf_flatMap, termsOf_flatMap, termsOf_flatMap]
  refine ⟨?_, ?_, fun hd => ?_, ?_⟩
  · rw [sum_congr rfl fun t _ => (stepW_input dims R (msdtLeft h3 t) _).2.1]
    simp
  · rw [sum_congr rfl fun t _ => (stepW_input dims R (msdtLeft h3 t) _).1]
    simp
  · rw [sum_congr rfl fun t _ => stepW_mttkrp dims R (msdtLeft h3 t) _]
    rw [sum_msdt h3 (fun l => treeTerms dims R l (N - 1)) m, sum_mul, mul_sum univ _ 6]
    apply Nat.mul_le_mul_left
    apply sum_le_sum
    intro i _
    rw [← firstProd_erase (fun j => by have := hd j; omega)]
    exact treeTerms_all hd _ (by omega) R
  · rw [sum_congr rfl fun t _ => stepW_update dims R (msdtLeft h3 t) _]
    simp

/-- **C74 (PP, set-up).** Orders 3 to 9: the set-up of a PP phase contracts the input tensor exactly three times, whatever the
order, and computes every operator — there is one for every nonempty prefix of an index string of all but one or all but two
modes — exactly once; no intermediate contraction is larger than those with the input tensor. -/
theorem C74_pp_setup (h3 : 3 ≤ N) (h9 : N ≤ 9) (same : Bool) {dims : Fin N → ℕ} (hd : ∀ j, 0 < dims j) {R : ℕ} {V : Tensor K}
    {W : List (Tensor K)} (hS : Shaped dims R V W) :
    ∃ ops w, ppOperatorsC same N V W [] = .ok (ops, w) ∧ ppOperators same N V W = .ok ops ∧
      countOf .input w = 3 ∧ termsOf .input w = 3 * ((∏ j, dims j) * R) ∧
      w.length = ((ppKeys N).flatMap fun k => k.inits.filter (· ≠ [])).dedup.length ∧
      ∀ e ∈ w, e.tag ≠ .input → ∃ m : Fin N, m.1 < 3 ∧ e.terms * dims m ≤ (∏ j, dims j) * R := by
  have hN : N ≤ 31 := by omega
  obtain ⟨ops, L, h1, hnd, hL⟩ := ppOperatorsC_runs h3 h9 same hS
  have hc := ppSetup_input h3 dims R hnd hL
  refine ⟨ops, _, h1 [], h1.erase (ppOperatorsC_erases same N V W), ?_⟩
  rw [List.nil_append]
  refine ⟨hc, ?_, ?_, ?_⟩
  · have key : ∀ l : List (List (Fin N)), termsOf .input (l.map (opW dims R)) = countOf .input (l.map (opW dims R)) *
        ((∏ j, dims j) * R) := by
      intro l
      induction l with
      | nil => simp [termsOf, countOf]
      | cons a l ih =>
        rw [List.map_cons, show ∀ x, opW dims R a :: x = [opW dims R a] ++ x from fun _ => rfl, termsOf_append, countOf_append,
          ih, add_mul]
        congr 1
        unfold opW
        split_ifs <;> simp [termsOf, countOf]
    rw [key, hc]
  · rw [List.length_map, List.length_reverse, ← List.length_map (f := fun ks : List (Fin N) => ks.map (idLab hN).lab)]
    have hinj : Function.Injective (fun ks : List (Fin N) => ks.map (idLab hN).lab) :=
      List.map_injective_iff.2 (idLab hN).inj
    apply List.Perm.length_eq
    rw [List.perm_ext_iff_of_nodup (hnd.map hinj) (List.nodup_dedup _)]
    intro k
    rw [List.mem_dedup, List.mem_flatMap, List.mem_map]
    constructor
    · rintro ⟨ks, hks, rfl⟩
      obtain ⟨hne, ⟨i, j, hij, t, e⟩ | ⟨i, t, e⟩⟩ := (hL ks).1 hks
      · refine ⟨_, (mem_ppKeys hN).2 (.inl ⟨i, j, hij, rfl⟩), ?_⟩
        rw [List.mem_filter, List.mem_inits]
        exact ⟨⟨t.map (idLab hN).lab, by rw [← List.map_append, e]⟩, by simpa using hne⟩
      · refine ⟨_, (mem_ppKeys hN).2 (.inr ⟨i, rfl⟩), ?_⟩
        rw [List.mem_filter, List.mem_inits]
        exact ⟨⟨t.map (idLab hN).lab, by rw [← List.map_append, e]⟩, by simpa using hne⟩
    · rintro ⟨k', hk', hk⟩
      rw [List.mem_filter, List.mem_inits] at hk
      obtain ⟨hp, hne⟩ := hk
      have hpre : ∀ ks : List (Fin N), k <+: ks.map (idLab hN).lab → ∃ q, q <+: ks ∧ q.map (idLab hN).lab = k := by
        intro ks h
        rw [List.prefix_iff_eq_take] at h
        exact ⟨ks.take k.length, List.take_prefix _ _, by rw [List.map_take]; exact h.symm⟩
      rcases (mem_ppKeys hN).1 hk' with ⟨i, j, hij, rfl⟩ | ⟨i, rfl⟩
      · obtain ⟨q, hq, rfl⟩ := hpre _ hp
        exact ⟨q, (hL q).2 ⟨by simpa using hne, .inl ⟨i, j, hij, hq⟩⟩, rfl⟩
      · obtain ⟨q, hq, rfl⟩ := hpre _ hp
        exact ⟨q, (hL q).2 ⟨by simpa using hne, .inr ⟨i, hq⟩⟩, rfl⟩
  · intro e he htag
    obtain ⟨ks, hks, rfl⟩ := List.mem_map.1 he
    rw [List.mem_reverse] at hks
    obtain ⟨hne, hpre⟩ := (hL ks).1 hks
    have hlen : ks.length ≠ 1 := by
      intro h
      apply htag
      unfold opW
      rw [if_pos h]
    cases hk : ks with
    | nil => exact absurd hk hne
    | cons m t =>
      cases t with
      | nil => rw [hk] at hlen; simp at hlen
      | cons m' t =>
        have hm3 : m.1 < 3 := by
          rw [← single_pref h3 m]
          have hpm : [m] <+: ks := ⟨m' :: t, by rw [hk]; rfl⟩
          rcases hpre with ⟨i, j, hij, h⟩ | ⟨i, h⟩
          · exact .inl ⟨i, j, hij, hpm.trans h⟩
          · exact .inr ⟨i, hpm.trans h⟩
        refine ⟨m, hm3, ?_⟩
        unfold opW
        rw [if_neg (by simp)]
        simp only
        rw [show ((compl (m :: m' :: t).dropLast).map dims).prod * R * dims m =
          dims m * ((compl (m :: m' :: t).dropLast).map dims).prod * R by ring]
        apply Nat.mul_le_mul_right
        rw [← List.prod_toFinset _ (compl_nodup _), ← Finset.mul_prod_erase univ dims (mem_univ m)]
        apply Nat.mul_le_mul_left
        apply Finset.prod_le_prod_of_subset_of_one_le'
        · intro x hx
          rw [List.mem_toFinset, mem_compl'] at hx
          rw [mem_erase]
          refine ⟨?_, mem_univ _⟩
          rintro rfl
          exact hx (by simp)
        · intro x _ _
          exact hd x

/-- **C74 (PP, sweep).** A sweep of a PP phase does not touch the input tensor: its MTTKRPs are `N (N-1)` corrections of the operators
with `R Σ_{i≠j} dims i dims j` products together, and Gram matrices and gradients take `N R² Σ dims` — the cost of a sweep
does not depend on the number of entries of the input tensor. -/
theorem C74_pp_sweep {F : Type} [Field F] [LinearOrder F] [IsStrictOrderedRing F] (h2 : 2 ≤ N)
    {dims : Fin N → ℕ} {R : ℕ} {V : Tensor F} {Winit : List (Tensor F)} {ops : Cache F}
    (ho : PPOps dims R V Winit ops) (hI : Shaped dims R V Winit) {s : PPState F}
    (hs : PPShaped dims R V s) {lam ratio : F} (hl : 0 < lam) (hd : ∀ j, 0 < dims j) {kn : Kern F} (hk : KernOk kn) :
    ∃ s' w, ppUpdatesC N R lam ratio kn ops Winit s [] = .ok (s', w) ∧
      ppUpdates N R lam ratio kn ops Winit s = .ok s' ∧
      countOf .input w = 0 ∧ countOf .mttkrp w = N * (N - 1) ∧
      termsOf .mttkrp w = R * ∑ i, ∑ j ∈ univ.erase i, dims i * dims j ∧
      termsOf .update w = N * ((∑ j, dims j) * (R * R)) := by
  obtain ⟨s', h1, _⟩ := ppUpdatesC_runs h2 ho hI hs hl hd hk (ratio := ratio)
  obtain ⟨a1, a2, a3, a4⟩ := ppSweep_sums dims R
  exact ⟨s', _, h1 [], h1.erase (ppUpdatesC_erases N R lam ratio kn ops Winit s), by simpa using a1, by simpa using a3,
    by simpa using a2, by simpa using a4⟩

end Sweeps

/-! ### the hypotheses are met -/

/-- Five sweeps over a 3×3×3 tensor, rank 2: 15 contractions with the input tensor by the plain optimizer, 10 by DT. -/
example : ∃ f' w o0 s w', iterC (simpleStepC 3 2 (1 / 2) (fun _ _ M _ => M) exCubeV) 5 ⟨exCubeW, exCubeW⟩ [] = .ok (f', w) ∧
    dtInit 3 = .ok o0 ∧
    iterC (dtStepC 3 2 (1 / 2) (fun _ _ M _ => M) exCubeV) (2 * 5) (o0, ⟨exCubeW, exCubeW⟩) [] = .ok (s, w') ∧
    countOf .input w = 15 ∧ countOf .input w' = 10 ∧ termsOf .input w = 810 ∧ termsOf .input w' = 540 ∧
    termsOf .mttkrp w = 5 * 72 ∧ termsOf .mttkrp w' ≤ 5 * 144 := by
  obtain ⟨f', w, h1, _, h3, h4, h5, _⟩ := C74_plain (N := 3) (by omega) (by omega) (f := ⟨exCubeW, exCubeW⟩) exCubeShaped (1 / 2)
    (fun _ _ M _ => M) 5
  obtain ⟨o0, s, w', g0, g1, _, g3, g4, g5, _⟩ := C74_dt (N := 3) (by omega) (by omega) (f := ⟨exCubeW, exCubeW⟩) exCubeShaped
    (1 / 2) (fun _ _ M _ => M) 5
  refine ⟨f', w, o0, s, w', h1, g0, g1, by rw [h3], by rw [g3], by rw [h4]; rfl, by rw [g4]; simp, by rw [h5]; rfl, ?_⟩
  have := g5 (fun _ => by omega)
  simp only [prod_const, card_erase_of_mem (mem_univ _), card_univ, Fintype.card_fin] at this
  omega

/-- MSDT, three steps (two sweeps): three contractions with the input tensor; the next step keeps at most 72 entries. -/
example : ∃ o0 s w s' w' w'', msdtInit 3 = .ok o0 ∧
    iterC (msdtStepC 3 2 (1 / 2) (fun _ _ M _ => M) exCubeV) (3 * 1) (o0, ⟨exCubeW, exCubeW⟩) [] = .ok (s, w) ∧
    countOf .input w = 3 ∧
    iterC (msdtStepC 3 2 (1 / 2) (fun _ _ M _ => M) exCubeV) (3 + 1) (o0, ⟨exCubeW, exCubeW⟩) [] = .ok (s', w' ++ w'') ∧
    storedOf .input w'' + storedOf .mttkrp w'' ≤ 72 := by
  obtain ⟨o0, s, w, h0, h1, _, h3, _⟩ := C74_msdt (N := 3) (by omega) (by omega) (f := ⟨exCubeW, exCubeW⟩) exCubeShaped
    (1 / 2) (fun _ _ M _ => M) 1
  obtain ⟨o0', _, w', s', w'', g0, _, g2, g3⟩ := C74_memory_msdt (N := 3) (by omega) (by omega) (fun _ => by omega)
    (f := ⟨exCubeW, exCubeW⟩) exCubeShaped (1 / 2) (fun _ _ M _ => M) 3
  rw [h0] at g0
  have : o0 = o0' := Except.ok.inj g0
  subst this
  refine ⟨o0, s, w, s', w', w'', h0, h1, h3, g2, le_trans g3 ?_⟩
  simp only [prod_const, card_erase_of_mem (mem_univ _), card_univ, Fintype.card_fin]
  omega

/-- A PP phase on a 2×3×1×4 tensor: set-up and one sweep. -/
example : ∃ (kn : Kern ℝ) (ops : Cache ℝ) (w : List Work) (s' : PPState ℝ) (w' : List Work),
    ppOperatorsC true 4 exVR exFacR.W [] = .ok (ops, w) ∧ countOf .input w = 3 ∧ termsOf .input w = 144 ∧
    ppUpdatesC 4 2 (1 / 2) 1 kn ops exFacR.W ⟨exFacR.W, exFacR.G, exFacR.W⟩ [] = .ok (s', w') ∧
    countOf .input w' = 0 ∧ countOf .mttkrp w' = 12 ∧ termsOf .mttkrp w' = 140 := by
  obtain ⟨kn, hk⟩ := exists_kernOk
  have hd : ∀ j : Fin 4, 0 < (![2, 3, 1, 4] : Fin 4 → ℕ) j := by decide
  obtain ⟨ops, w, h1, h2, h3, h4, _⟩ := C74_pp_setup (N := 4) (by omega) (by omega) true hd exShapedR
  obtain ⟨ops', h5, h6⟩ := ppOperators_ok (N := 4) (by omega) (by omega) true exShapedR
  rw [h2] at h5
  have : ops = ops' := Except.ok.inj h5
  subst this
  obtain ⟨s', w', g1, _, g3, g4, g5, _⟩ := C74_pp_sweep (N := 4) (by omega) h6 exShapedR
    (s := ⟨exFacR.W, exFacR.G, exFacR.W⟩) ⟨exShapedR, rfl, exShapedR⟩ (lam := 1 / 2) (ratio := 1) (by norm_num) hd hk
  refine ⟨kn, ops, w, s', w', h1, h3, ?_, g1, g3, g4, ?_⟩
  · rw [h4]; decide
  · rw [g5]; decide

/-- An expression whose operands are full of ones: `C[a] = A[a,b] * B[b]`. -/
example : ∃ T : Tensor ℤ, einsum [2] [1] [(⟨[2, 3], fun _ => 1⟩, [1, 2]), (⟨[3], fun _ => 1⟩, [2])] = .ok T ∧ T.val [1] = 3 := by
  obtain ⟨T, h1, c, h2, h3⟩ := C74_terms_meaning (d := fun l => if l = 1 then 2 else 3) (sc := [1])
    (ops := [(⟨[2, 3], fun _ => 1⟩, [1, 2]), (⟨[3], fun _ => 1⟩, [2])]) (by simp) (by simp) (by simp)
  refine ⟨T, h1, ?_⟩
  rw [h3 [1] (by decide)]
  have : exprTerms [2] [1] [((⟨[2, 3], fun _ => 1⟩ : Tensor ℤ), [1, 2]), (⟨[3], fun _ => 1⟩, [2])] = 6 := by decide
  have h4 : 6 = 2 * c := by rw [← this]; simpa using h2
  omega

end Properties
