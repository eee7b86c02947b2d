import Verif.Proofs.DTSteps
import Verif.Proofs.LegacySweep

/-! # The stored gradients keep the shapes of the factors -/

namespace Model

variable {K : Type} [CommRing K] {N : ℕ} {dims : Fin N → ℕ} {R : ℕ} {V : Tensor K}

theorem modeTail_G {solve : Spec.Solver K} {f f' : Fac K} {M S : Tensor K} (i : Fin N) (hMl : M.lens = [dims i, R])
    (hG : Shaped dims R V f.G) (h : modeTail solve f i.1 M S = .ok f') : Shaped dims R V f'.G := by
  unfold modeTail at h
  simp only [bind, Except.bind, pure, Except.pure] at h
  split at h
  · cases h
  split at h
  · cases h
  rename_i WS _
  unfold zipT at h
  split at h
  · rename_i heq
    split_ifs at heq
    cases heq
    cases h
  · rename_i heq
    split_ifs at heq
    cases heq
    cases h
    exact hG.set i hMl

theorem updateMode_G {lam : K} {solve : Spec.Solver K} {f f' : Fac K} {M : Tensor K} (i : Fin N)
    (hMl : M.lens = [dims i, R]) (hG : Shaped dims R V f.G) (h : updateMode N R lam solve f i.1 M = .ok f') :
    Shaped dims R V f'.G := by
  unfold updateMode at h
  simp only [bind, Except.bind] at h
  split at h
  · cases h
  · exact modeTail_G i hMl hG h

theorem simpleStep_G (h2 : 2 ≤ N) (hN : N ≤ 10) {s : ℕ} {f f' : Fac K}
    (hS : Shaped (fun _ : Fin N => s) R V f.W) (hG : Shaped (fun _ : Fin N => s) R V f.G) (lam : K)
    (solve : Spec.Solver K) (h : simpleStep N R lam solve V f = .ok f') : Shaped (fun _ : Fin N => s) R V f'.G := by
  obtain ⟨g, h1, h2'⟩ := foldlM_inv
    (f := fun (f : Fac K) (i : ℕ) => do
      let M ← simpleM N V f.W i
      updateMode N R lam solve f i M)
    (P := fun _ (g : Fac K) => Shaped (fun _ : Fin N => s) R V g.W ∧ Shaped (fun _ : Fin N => s) R V g.G)
    (List.range N) [] f ⟨hS, hG⟩ (by
      rintro d x g hx ⟨t, ht⟩ ⟨g1, g2⟩
      have hxN : x < N := by simpa using hx
      obtain ⟨M, m1, m2, m3, m4⟩ := simpleM_ok h2 hN g1 ⟨x, hxN⟩
      obtain ⟨f', q1, q2, q3, q4⟩ := updateMode_ok h2 g1 g2.count lam solve ⟨x, hxN⟩ m2 m3 m4
      refine ⟨f', ?_, q2, updateMode_G ⟨x, hxN⟩ m3 g2 q1⟩
      simp only [bind, Except.bind]
      rw [m1]
      exact q1)
  have : simpleStep N R lam solve V f = .ok g := h1
  rw [this] at h
  cases h
  exact h2'.2

theorem treeLoop_G (h3 : 3 ≤ N) (hN : N ≤ 31) {f : Fac K} (hS : Shaped dims R V f.W) (hG : Shaped dims R V f.G)
    (left : Fin N) {tree : Tree} (ht : GoodTree (N - 1) tree) (lam : K) (solve : Spec.Solver K) {s c : ℕ}
    (hsc : s + c ≤ N - 1) {T : Tensor K} (hTc : Canon T)
    (hTv : Valid dims R (arr V N) (mats f.W) T (nodeModes left (N - 2) (N - 2))) :
    ∃ f' cache', (List.range' s c).foldlM (treeUpdate N R lam solve tree V (indexesOf N left.1))
        (f, [(vec2str (node (N - 2) (N - 2)), T)]) = .ok (f', cache') ∧ Shaped dims R V f'.G := by
  obtain ⟨f', cache', h1, h2, h4⟩ := treeLoop_gen h3 hN (fun f : Fac K => f.W)
    (fun f _ m M => updateMode N R lam solve f m M)
    (fun _ g => Shaped dims R V g.G) left ht hsc hS hG hTc hTv (by
      rintro i g M hsi hic gS gG hMc hMl hM
      obtain ⟨f', q1, q2, q3, q4⟩ := updateMode_ok (by omega) gS gG.count lam solve (modeAt left i) hMc hMl hM
      refine ⟨f', q1, q2, updateMode_G _ hMl gG q1, ?_⟩
      · intro m hne
        have := congrFun (congrArg Spec.AlsState.W q4) m
        simp only [absF, Spec.alsUpdate] at this
        rwa [Function.update_of_ne hne] at this)
  exact ⟨f', cache', h1, h4⟩

theorem dtStep_G (h3 : 3 ≤ N) (hN : N ≤ 31) {o o' : DTState} {f f' : Fac K} (ho : DTGood o N)
    (hS : Shaped dims R V f.W) (hG : Shaped dims R V f.G) (lam : K) (solve : Spec.Solver K)
    (h : dtStep N R lam solve V (o, f) = .ok (o', f')) : Shaped dims R V f'.G := by
  have hidx : (if o.first then o.indexes1 else o.indexes2) = indexesOf N o.left := by
    unfold DTState.left
    split_ifs
    · exact ho.i1
    · exact ho.i2
  obtain ⟨T, hT, hTc, hTv⟩ := mapInit_ok (by omega) hN hS ⟨o.left, ho.left_lt⟩
  obtain ⟨s, c, hpos, hsc⟩ := dtPositions_range' ho.sp o.first
  obtain ⟨g, cache', h1, h2⟩ := treeLoop_G h3 hN hS hG ⟨o.left, ho.left_lt⟩ ho.tree lam solve hsc hTc hTv
  unfold dtStep at h
  simp only [hidx] at h
  rw [show (if o.first = true then o.left1 else o.left2) = o.left from rfl] at h
  rw [indexesOf_length ⟨o.left, ho.left_lt⟩, hpos] at h
  simp only [bind, Except.bind] at h
  simp only at hT
  rw [hT] at h
  simp only at h
  rw [h1] at h
  cases h
  exact h2

theorem msdtStep_G (h3 : 3 ≤ N) (hN : N ≤ 31) {o o' : MSDTState} {f f' : Fac K} (ho : GoodTree (N - 1) o.tree)
    (hS : Shaped dims R V f.W) (hG : Shaped dims R V f.G) (lam : K) (solve : Spec.Solver K)
    (h : msdtStep N R lam solve V (o, f) = .ok (o', f')) : Shaped dims R V f'.G := by
  have hlt : (o.left + N - 1) % N < N := Nat.mod_lt _ (by omega)
  obtain ⟨T, hT, hTc, hTv⟩ := mapInit_ok (by omega) hN hS ⟨(o.left + N - 1) % N, hlt⟩
  obtain ⟨g, cache', h1, h2⟩ := treeLoop_G h3 hN hS hG ⟨(o.left + N - 1) % N, hlt⟩ ho lam solve
    (s := 0) (c := N - 1) (by omega) hTc hTv
  unfold msdtStep at h
  simp only at h
  rw [indexesOf_length ⟨(o.left + N - 1) % N, hlt⟩, List.range_eq_range'] at h
  simp only [bind, Except.bind] at h
  simp only at hT
  rw [hT] at h
  simp only at h
  rw [h1] at h
  cases h
  exact h2

theorem legacyUpdates_G (h4 : 4 ≤ N) (h5 : N ≠ 5) (hN : N ≤ 31) (lam : K) (solve : Spec.Solver K) {F : List (Tensor K)}
    (hF : Shaped dims R V F) {f f' : Fac K} (hS : Shaped dims R V f.W) (hG : Shaped dims R V f.G)
    (h : legacyUpdates N R lam solve V F f = .ok f') : Shaped dims R V f'.G := by
  obtain ⟨s, hs, h1, h2, h3⟩ := foldlM_range'_inv (s := 0) (n := N)
    (P := fun j (s : Fac K × Cache K) => Shaped dims R V s.1.W ∧ Shaped dims R V s.1.G ∧
      DInv N (CpGood (by omega) dims R V s.1.W) j s.2)
    (f := legacyUpdate N R lam solve (constructDT 0 (N - 1) {}) V F) (a := (f, []))
    ⟨hS, hG, DInv.nil _ _⟩
    (by
      rintro j ⟨g, c⟩ _ hj ⟨g1, g2, g4⟩
      obtain ⟨f', c', b1, b2, b3, b4, b5⟩ := legacyUpdate_ok h4 h5 hN lam solve hF g1 g2.count ⟨j, by omega⟩ g4
      refine ⟨(f', c'), b1, b2, ?_, b5⟩
      unfold legacyUpdate at b1
      simp only [bind, Except.bind, pure, Except.pure] at b1
      split at b1
      · cases b1
      split at b1
      · cases b1
      split at b1
      · cases b1
      rename_i Fi hFi
      split at b1
      · cases b1
      rename_i M hM
      split at b1
      · cases b1
      rename_i f2 hf2
      cases b1
      obtain ⟨Fi', hFi', _, hFl, _⟩ := mats_get hF ⟨j, by omega⟩
      simp only at hFi'
      rw [hFi'] at hFi
      cases hFi
      refine modeTail_G ⟨j, by omega⟩ ?_ g2 hf2
      unfold zipT at hM
      split_ifs at hM with he
      cases hM
      rw [← hFl, ← he])
  have : legacyUpdates N R lam solve V F f = .ok s.1 := by
    unfold legacyUpdates
    simp only
    rw [List.range_eq_range', hs]
    rfl
  rw [this] at h
  cases h
  exact h2

end Model
