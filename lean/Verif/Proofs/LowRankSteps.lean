import Verif.Proofs.LowRank
import Verif.Proofs.GradShape

namespace Model

open Finset

variable {K : Type} [CommRing K] {N : ℕ}

/-- The loop of a low-rank step: at most one position (`istar`) is a low-rank correction. -/
theorem lrLoop_ok (h3 : 3 ≤ N) (hN : N ≤ 31) {dims : Fin N → ℕ} {R : ℕ} {V : Tensor K}
    {f : Fac K} {u : LR K} {low : Bool} (hS : Shaped dims R V f.W) (hG : f.G.length = N) (left : Fin N)
    {tree : Tree} (ht : GoodTree (N - 1) tree) (lam : K) (solve : Spec.Solver K) (q : ℕ)
    (lr : Spec.LowRank K) {s c : ℕ} (hsc : s + c ≤ N - 1) {T : Tensor K} (hTc : Canon T)
    (hTv : TopIs dims R (arr V N) left (mats f.W left) T)
    (upd : LRLoop K → ℕ → ℕ → Tensor K → Except Fault (LRLoop K))
    (base : Spec.AlsState N K → Fin N → ℕ → ℕ → K) (flag : ℕ → Bool) (istar : ℕ) (B : ℕ → ℕ → K)
    (hflag1 : ∀ i, s ≤ i → i < s + c → flag i = true → i = istar)
    (hB : ∀ st : Spec.AlsState N K, st.W (modeAt left istar) = mats f.W (modeAt left istar) →
      base st (modeAt left istar) = B)
    (hlr : ∀ i (a : LRLoop K) M, s ≤ i → i < s + c → flag i = true → Shaped dims R V a.1.W →
      ∃ A : Tensor K, A.lens = [dims (modeAt left i), R] ∧ mat A = base (absF N a.1) (modeAt left i) ∧
        upd a i (modeAt left i).1 M =
          (lrMode N R lam q lr a.1 (modeAt left i).1 A M).map fun r => (r.1, r.2, true))
    (hno : ∀ i (a : LRLoop K) M, s ≤ i → i < s + c → flag i = false →
      upd a i (modeAt left i).1 M =
        (updateMode N R lam solve a.1 (modeAt left i).1 M).map fun g => (g, a.2)) :
    ∃ f' u' low' cache', (List.range' s c).foldlM
        (treeBody N tree V (indexesOf N left.1) (fun a : LRLoop K => a.1.W) upd)
        ((f, u, low), [(topKey N, T)]) = .ok ((f', u', low'), cache') ∧
      Shaped dims R V f'.W ∧ (f'.G.length = N ∧ (Shaped dims R V f.G → Shaped dims R V f'.G)) ∧
      absF N f' = Spec.lrRun dims R lam solve q lr (arr V N) base
        ((List.range' s c).map fun p => (modeAt left p, flag p)) (absF N f) ∧
      (∀ p < N, (p < s ∨ s + c ≤ p) → mats f'.W (modeAt left p) = mats f.W (modeAt left p)) ∧
      (low = true → low' = true) ∧
      (s ≤ istar → istar < s + c → flag istar = true → low' = true ∧
        LRShape u' (dims (modeAt left istar)) q R ∧
        ∀ x < dims (modeAt left istar), ∀ r < R,
          mats f'.W (modeAt left istar) x r = B x r + lrDelta q u' x r) ∧
      ((∀ i, s ≤ i → i < s + c → flag i = false) → u' = u) := by
  obtain ⟨⟨f', u', low'⟩, cache', h1, h2, a1, a2, a3, a4, a5, a6⟩ := treeLoop_gen h3 hN
    (fun a : LRLoop K => a.1.W) upd
    (fun i (a : LRLoop K) => (a.1.G.length = N ∧ (Shaped dims R V f.G → Shaped dims R V a.1.G)) ∧
      absF N a.1 = Spec.lrRun dims R lam solve q lr (arr V N) base
        ((List.range' s (i - s)).map fun p => (modeAt left p, flag p)) (absF N f) ∧
      (∀ p < N, (p < s ∨ i ≤ p) → mats a.1.W (modeAt left p) = mats f.W (modeAt left p)) ∧
      (low = true → a.2.2 = true) ∧
      (s ≤ istar → istar < i → flag istar = true → a.2.2 = true ∧
        LRShape a.2.1 (dims (modeAt left istar)) q R ∧
        ∀ x < dims (modeAt left istar), ∀ r < R,
          mats a.1.W (modeAt left istar) x r = B x r + lrDelta q a.2.1 x r) ∧
      ((∀ j, s ≤ j → j < i → flag j = false) → a.2.1 = u))
    left ht hsc (st := (f, u, low)) hS
    ⟨⟨hG, id⟩, by simp [Spec.lrRun], fun _ _ _ => rfl, id, fun h h' => absurd h (by omega), fun _ => rfl⟩ hTc
    ((topIs_iff (by omega)).2 hTv) (by
      rintro i ⟨g, v, lw⟩ M hsi hic gS ⟨⟨gG, gH⟩, gA, gU, gL, gP, gu⟩ hMc hMl hM
      simp only at gG gH gA gU gL gP gu gS hM ⊢
      have hrange : (List.range' s (i + 1 - s)) = List.range' s (i - s) ++ [i] := by
        rw [show i + 1 - s = (i - s) + 1 by omega, List.range'_concat]
        simp [show s + (i - s) = i by omega]
      by_cases hf : flag i = true
      · obtain rfl := hflag1 i hsi hic hf
        obtain ⟨A, hAl, hAm, hu⟩ := hlr i (g, v, lw) M hsi hic hf gS
        obtain ⟨f', u', q1, q2, q3, q4, q5, q6⟩ := lrMode_ok (by omega) gS gG lam q lr (modeAt left i) hAl hMc
          hMl hM
        have hbase : base (absF N g) (modeAt left i) = B :=
          hB _ (gU i (by omega) (Or.inr (le_refl _)))
        refine ⟨(f', u', true), ?_, q2, ⟨⟨q3.1, fun h => q3.2 (gH h)⟩, ?_, ?_, fun _ => rfl, ?_, ?_⟩, ?_⟩
        · rw [hu, q1]; rfl
        · rw [hrange, List.map_append, q4, gA, hAm]
          simp [Spec.lrRun, hf, gA]
        · intro p hp hp'
          have hne : modeAt left p ≠ modeAt left i := fun e => by
            have := modeAt_inj left hp (by omega) e
            omega
          have := congrFun (congrArg Spec.AlsState.W q4) (modeAt left p)
          simp only [absF, Spec.lrUpdate] at this
          rw [Function.update_of_ne hne] at this
          rw [this]
          exact gU p hp (by omega)
        · intro _ _ _
          refine ⟨rfl, q5, ?_⟩
          intro x hx r hr
          rw [q6 x hx r hr, hAm, hbase]
        · intro h
          rw [h i hsi (by omega)] at hf
          cases hf
        · intro m hne
          have := congrFun (congrArg Spec.AlsState.W q4) m
          simp only [absF, Spec.lrUpdate] at this
          rwa [Function.update_of_ne hne] at this
      · have hf' : flag i = false := by simpa using hf
        obtain ⟨f', q1, q2, q3, q4⟩ := updateMode_ok (by omega) gS gG lam solve (modeAt left i) hMc hMl hM
        have hother : ∀ m, m ≠ modeAt left i → mats f'.W m = mats g.W m := by
          intro m hne
          have := congrFun (congrArg Spec.AlsState.W q4) m
          simp only [absF, Spec.alsUpdate] at this
          rwa [Function.update_of_ne hne] at this
        refine ⟨(f', v, lw), ?_, q2, ⟨⟨q3, fun h => updateMode_G _ hMl (gH h) q1⟩, ?_, ?_, gL, ?_, ?_⟩, hother⟩
        · rw [hno i (g, v, lw) M hsi hic hf', q1]; rfl
        · rw [hrange, List.map_append, q4, gA]
          simp [Spec.lrRun, hf']
        · intro p hp hp'
          rw [hother _ (fun e => by
            have := modeAt_inj left hp (by omega) e
            omega)]
          exact gU p hp (by omega)
        · intro k1 k2 k3
          have hne : istar ≠ i := by rintro rfl; exact hf k3
          obtain ⟨b1, b2, b3⟩ := gP k1 (by omega) k3
          refine ⟨b1, b2, ?_⟩
          simp only
          rw [hother _ (fun e => hne (modeAt_inj left (by omega) (by omega) e))]
          exact b3
        · intro h; exact gu fun j j1 j2 => h j j1 (by omega))
  refine ⟨f', u', low', cache', ?_, h2, a1, ?_, a3, a4, a5, a6⟩
  · rw [topKey_eq (by omega)]; exact h1
  · rw [a2, show s + c - s = c by omega]

end Model
