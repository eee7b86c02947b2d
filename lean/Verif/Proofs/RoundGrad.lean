import Verif.Proofs.RoundRun

/-! The gradients stored by the rounded steps keep the shapes of the factors. -/

namespace Model

open Finset

variable {N : ℕ}

theorem modeTailR_G {B : ℕ} {u : ℝ} {P : Arith} (hP : RoundOk B u P) (hu : 0 ≤ u) (hB : 1 ≤ B) {dims : Fin N → ℕ} {R : ℕ}
    (hd : ∀ j, dims j ≤ B) (hR : R ≤ B) {V : Tensor ℝ} {f : Fac ℝ} (hS : Shaped dims R V f.W) (hG : Shaped dims R V f.G)
    (solve : Spec.Solver ℝ) (i : Fin N) {M S : Tensor ℝ} (hMl : M.lens = [dims i, R]) (hSl : S.lens = [R, R]) {f' : Fac ℝ}
    (h : modeTailR P solve f i M S = .ok f') : Shaped dims R V f'.G := by
  obtain ⟨Wi, hr, _, hl, he⟩ := mats_get hS i
  obtain ⟨TE, e1, e2, e3, e4⟩ := einsum_matmul hl hSl
  obtain ⟨A', T', b1, b2, b3⟩ := ev_rel hP hu (lens := [dims i, R]) (sc := [li, lj])
    (l := [⟨Wi, absT Wi, Wi, [li, lk], 1⟩, ⟨S, absT S, S, [lk, lj], 1⟩]) (by simp) (by simp)
    (by
      intro q hq
      simp only [List.mem_cons, List.not_mem_nil, or_false] at hq
      rcases hq with rfl | rfl
      · exact ⟨le_rfl, RelT.exact Wi⟩
      · exact ⟨le_rfl, RelT.exact S⟩) e1 (by
      apply nTerms_le hB lk
      · simp [hl, hSl]
      · intro o ho m hm
        simp only [List.map_cons, List.map_nil, List.mem_cons, List.not_mem_nil, or_false] at ho
        rcases ho with rfl | rfl
        · simp [hl] at hm
          rcases hm with rfl | rfl
          · exact hd i
          · exact hR
        · simp [hSl] at hm; omega)
  simp only [List.map_cons, List.map_nil] at b1 b2 b3
  have hT : M.lens = T'.lens := by rw [← b3.1, e3, hMl]
  obtain ⟨GE, z1, z2, z3, z4⟩ := zipT_ok (fun a b : ℝ => -a + b) (A := M) (B := T') hT
  obtain ⟨g, g1, g2, _⟩ := hP.zp_ok signedSum_neg_add z1
  unfold modeTailR at h
  simp only [bind, Except.bind] at h
  rw [hr] at h
  simp only [hMl, b2] at h
  rw [g1] at h
  rw [← Except.ok.inj h]
  exact hG.set i (by rw [g2, z3, hMl])

theorem near_update_G {B : ℕ} {u : ℝ} {P : Arith} (hP : RoundOk B u P) (hu : 0 ≤ u) (hB : 1 ≤ B) (h2 : 2 ≤ N) {dims : Fin N → ℕ}
    {R : ℕ} (hd : ∀ j, dims j ≤ B) (hR : R ≤ B) {V : Tensor ℝ} {f f' : Fac ℝ} (hS : Shaped dims R V f.W) (hG : Shaped dims R V f.G) (lam : ℝ)
    (solve : Spec.Solver ℝ) (i : Fin N) {index : List ℕ} (hmem : ∀ m, m ∈ index ↔ m < N ∧ m ≠ i.1)
    (hnd : index.Nodup) {M : Tensor ℝ} {cM : ℝ} (hM : Near cM dims R (arr V N) (mats f.W) M [i])
    (h : (do
        let S ← gramSR P index R lam f.W
        modeTailR P solve f i M S : Except Fault (Fac ℝ)) = .ok f') : Shaped dims R V f'.G := by
  obtain ⟨hl, hv⟩ := near_single hM
  obtain ⟨SE, SA, S, s1, s2, s3, s4, s5, s6, s7, s8⟩ := gramSR_ok hP hu hB h2 hd hR hS lam i hmem hnd
  rw [s1] at h
  exact modeTailR_G hP hu hB hd hR hS hG solve i hl (by rw [← s8.1, s4]) h

theorem treeLoopR_G {B : ℕ} {u : ℝ} {P : Arith} (hP : RoundOk B u P) (hu : 0 ≤ u) (hB : 1 ≤ B) (h3 : 3 ≤ N) (hN : N ≤ 31)
    {dims : Fin N → ℕ} {R : ℕ} (hd : ∀ j, dims j ≤ B) (hRB : R ≤ B) {V : Tensor ℝ}
    {f : Fac ℝ} (hS : Shaped dims R V f.W) (hG : Shaped dims R V f.G) (left : Fin N) {tree : Tree}
    (ht : GoodTree (N - 1) tree) (lam : ℝ) (solve : Spec.Solver ℝ) {s c : ℕ} (hsc : s + c ≤ N - 1)
    {T : Tensor ℝ}
    (hTv : Near (1 + u) dims R (arr V N) (mats f.W) T (nodeModes left (N - 2) (N - 2))) :
    ∃ f' cache', (List.range' s c).foldlM (treeUpdateR P N R lam solve tree V (indexesOf N left.1))
        (f, [(vec2str (node (N - 2) (N - 2)), T)]) = .ok (f', cache') ∧ Shaped dims R V f'.G := by
  obtain ⟨f', cache', h1, h2, h4⟩ := treeLoopR_gen hP hu hB h3 hN hd hRB (fun f : Fac ℝ => f.W)
    (fun f _ m M => updateModeR P N R lam solve f m M)
    (fun _ g => Shaped dims R V g.G) left ht hsc hS hG hTv (by
      rintro i g M hsi hic gS gG hM
      obtain ⟨f', q1, q2, q3, q4⟩ := near_update hP hu hB (by omega) hd hRB gS gG.count lam solve (modeAt left i)
        (fun _ => mem_othersOf (modeAt left i).2) (othersOf_nodup _)
        (pow_le_pow_right₀ (by linarith) (show N - 1 ≤ N + 1 by omega)) hM
      exact ⟨f', q1, q2, near_update_G hP hu hB (by omega) hd hRB gS gG lam solve (modeAt left i)
        (fun _ => mem_othersOf (modeAt left i).2) (othersOf_nodup _) hM q1, fun m hne => roundedUpdate_other q4 hne⟩)
  exact ⟨f', cache', h1, h4⟩

theorem dtStepR_G {B : ℕ} {u : ℝ} {P : Arith} (hP : RoundOk B u P) (hu : 0 ≤ u) (hB : 1 ≤ B) (h3 : 3 ≤ N) (hN : N ≤ 31)
    {dims : Fin N → ℕ} {R : ℕ} (hd : ∀ j, dims j ≤ B) (hRB : R ≤ B) {V : Tensor ℝ}
    {o o' : DTState} {f f' : Fac ℝ} (ho : DTGood o N) (hS : Shaped dims R V f.W) (hG : Shaped dims R V f.G) {lam : ℝ} {solve : Spec.Solver ℝ}
    (h : dtStepR P N R lam solve V (o, f) = .ok (o', f')) : Shaped dims R V f'.G := by
  have hidx : (if o.first then o.indexes1 else o.indexes2) = indexesOf N o.left := by
    unfold DTState.left
    split_ifs
    · exact ho.i1
    · exact ho.i2
  obtain ⟨T, hT, hTv⟩ := topTR_ok hP hu hB (by omega) hN hd hRB hS ⟨o.left, ho.left_lt⟩
  obtain ⟨s, c, hpos, hsc⟩ := dtPositions_range' ho.sp o.first
  obtain ⟨g, cache', h1, h2⟩ := treeLoopR_G hP hu hB h3 hN hd hRB hS hG ⟨o.left, ho.left_lt⟩ ho.tree lam solve hsc hTv
  unfold dtStepR at h
  simp only [hidx] at h
  rw [show (if o.first = true then o.left1 else o.left2) = o.left from rfl] at h
  rw [indexesOf_length ⟨o.left, ho.left_lt⟩, hpos] at h
  simp only [bind, Except.bind] at h
  simp only at hT
  rw [hT] at h
  simp only at h
  rw [h1] at h
  cases h
  exact h2

theorem msdtStepR_G {B : ℕ} {u : ℝ} {P : Arith} (hP : RoundOk B u P) (hu : 0 ≤ u) (hB : 1 ≤ B) (h3 : 3 ≤ N) (hN : N ≤ 31)
    {dims : Fin N → ℕ} {R : ℕ} (hd : ∀ j, dims j ≤ B) (hRB : R ≤ B) {V : Tensor ℝ}
    {o o' : MSDTState} {f f' : Fac ℝ} (ho : GoodTree (N - 1) o.tree) (hS : Shaped dims R V f.W) (hG : Shaped dims R V f.G) {lam : ℝ}
    {solve : Spec.Solver ℝ} (h : msdtStepR P N R lam solve V (o, f) = .ok (o', f')) : Shaped dims R V f'.G := by
  have hlt : (o.left + N - 1) % N < N := Nat.mod_lt _ (by omega)
  obtain ⟨T, hT, hTv⟩ := topTR_ok hP hu hB (by omega) hN hd hRB hS ⟨(o.left + N - 1) % N, hlt⟩
  obtain ⟨g, cache', h1, h2⟩ := treeLoopR_G hP hu hB h3 hN hd hRB hS hG ⟨(o.left + N - 1) % N, hlt⟩ ho lam solve
    (s := 0) (c := N - 1) (by omega) hTv
  unfold msdtStepR at h
  simp only at h
  rw [indexesOf_length ⟨(o.left + N - 1) % N, hlt⟩, List.range_eq_range'] at h
  simp only [bind, Except.bind] at h
  simp only at hT
  rw [hT] at h
  simp only at h
  rw [h1] at h
  cases h
  exact h2

theorem simpleStepR_G {B : ℕ} {u : ℝ} {P : Arith} (hP : RoundOk B u P) (hu : 0 ≤ u) (hB : 1 ≤ B) (h2 : 2 ≤ N) (hN : N ≤ 10)
    {s R : ℕ} (hd : s ≤ B) (hRB : R ≤ B) {V : Tensor ℝ} {f f' : Fac ℝ}
    (hS : Shaped (fun _ : Fin N => s) R V f.W) (hG : Shaped (fun _ : Fin N => s) R V f.G) {lam : ℝ}
    {solve : Spec.Solver ℝ} (h : simpleStepR P N R lam solve V f = .ok f') : Shaped (fun _ : Fin N => s) R V f'.G := by
  obtain ⟨g, h1, h2'⟩ := foldlM_inv
    (f := fun (f : Fac ℝ) (i : ℕ) => do
      let M ← simpleMR P N V f.W i
      updateModeR P N R lam solve f i M)
    (P := fun _ (g : Fac ℝ) => Shaped (fun _ : Fin N => s) R V g.W ∧ Shaped (fun _ : Fin N => s) R V g.G)
    (List.range N) [] f ⟨hS, hG⟩ (by
      rintro d x g hx ⟨t, ht⟩ ⟨g1, g2⟩
      have hxN : x < N := by simpa using hx
      obtain ⟨M, m1, m2⟩ := simpleMR_ok hP hu hB h2 hN hd hRB g1 ⟨x, hxN⟩
      obtain ⟨f', q1, q2, q3, q4⟩ := near_update hP hu hB h2 (fun _ => hd) hRB g1 g2.count lam solve ⟨x, hxN⟩
        (fun _ => mem_othersOf hxN) (othersOf_nodup _) (pow_le_pow_right₀ (by linarith) (show N ≤ N + 1 by omega)) m2
      refine ⟨f', ?_, q2, near_update_G hP hu hB h2 (fun _ => hd) hRB g1 g2 lam solve ⟨x, hxN⟩
        (fun _ => mem_othersOf hxN) (othersOf_nodup _) m2 q1⟩
      simp only [bind, Except.bind]
      rw [m1]
      exact q1)
  have : simpleStepR P N R lam solve V f = .ok g := h1
  rw [this] at h
  cases h
  exact h2'.2

end Model
