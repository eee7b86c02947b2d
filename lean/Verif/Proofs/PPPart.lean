import Verif.Model.PPPart
import Verif.Proofs.PPUpdate
import Verif.Proofs.PPDriverCP
import Verif.Properties.Solve

/-! Partial-update pairwise perturbation. -/

namespace Model

open Finset

variable {N : ℕ} {dims : Fin N → ℕ} {R : ℕ} {V : Tensor ℝ} {Winit : List (Tensor ℝ)} {ops : Cache ℝ}

/-- Everything has the shape of the problem. -/
structure PartShaped (dims : Fin N → ℕ) (R : ℕ) (V : Tensor ℝ) (s : PartState) : Prop where
  W : Shaped dims R V s.W
  G : s.G.length = N
  dW : Shaped dims R V s.dW
  dM : Shaped dims R V s.dM
  M : Shaped dims R V s.M
  rel : s.rel.length = N

theorem zerosLike_mat {T : Tensor ℝ} (x r : ℕ) : mat (zerosLike T) x r = 0 := by
  simp [mat, zerosLike, Spec.clip]

theorem propagate_ok (ho : PPOps dims R V Winit ops) {dW dM : List (Tensor ℝ)} (hD : Shaped dims R V dW)
    (hM : Shaped dims R V dM) (i : Fin N) :
    ∃ dM', propagate N ops dW i.1 dM = .ok dM' ∧ Shaped dims R V dM' ∧ (mats dM' i : ℕ → ℕ → ℝ) = mats dM i ∧
      ∀ j, j ≠ i → ∀ x < dims j, ∀ r < R, mats dM' j x r = mats dM j x r +
        Spec.mttkrp dims (arr V N) (Function.update (mats Winit) i (mats dW i)) j x r := by
  have hi := i.2
  obtain ⟨dM', h1, h2, h3, h4⟩ := foldlM_inv (α := List (Tensor ℝ))
    (f := fun (dM : List (Tensor ℝ)) (j : ℕ) => do
      let Dj ← rd dM j
      let D ← ppContrib N ops dW j Dj i.1
      pure (dM.set j D))
    (P := fun done (D : List (Tensor ℝ)) => Shaped dims R V D ∧
      (∀ j : Fin N, j.1 ∉ done → (mats D j : ℕ → ℕ → ℝ) = mats dM j) ∧
      ∀ j : Fin N, j.1 ∈ done → ∀ x < dims j, ∀ r < R, mats D j x r = mats dM j x r +
        Spec.mttkrp dims (arr V N) (Function.update (mats Winit) i (mats dW i)) j x r)
    (List.range i.1 ++ List.range' (i.1 + 1) (N - (i.1 + 1))) [] dM
    ⟨hM, fun _ _ => rfl, by simp⟩ (by
      rintro d n D hn ⟨t, ht⟩ ⟨a1, a2, a3⟩
      rw [List.mem_append, List.mem_range, List.mem_range'_1] at hn
      have hnN : n < N := by omega
      have hnd : n ∉ d := by
        have hnd : (List.range i.1 ++ List.range' (i.1 + 1) (N - (i.1 + 1))).Nodup := by
          rw [List.nodup_append]
          refine ⟨List.nodup_range, List.nodup_range', ?_⟩
          intro a ha b hb
          rw [List.mem_range] at ha
          rw [List.mem_range'_1] at hb
          omega
        rw [List.nil_append] at ht
        rw [ht, List.nodup_append] at hnd
        intro hmem
        exact hnd.2.2 n hmem n (by simp) rfl
      obtain ⟨Dj, d1, _, d2, d3⟩ := mats_get a1 ⟨n, hnN⟩
      obtain ⟨M', b1, b2, b3, b4⟩ := ppContrib_ok ho hD (i := ⟨n, hnN⟩) (j := i)
        (fun e => by have := congrArg Fin.val e; simp at this; omega) d2
      have hl := a1.count
      refine ⟨D.set n M', ?_, a1.set ⟨n, hnN⟩ b3, ?_, ?_⟩
      · simp only [bind, Except.bind]
        rw [d1]; simp only
        rw [b1]; rfl
      · intro j hj
        rw [List.mem_append, List.mem_singleton, not_or] at hj
        have hne : j ≠ ⟨n, hnN⟩ := fun e => hj.2 (congrArg Fin.val e)
        rw [mats_set hl ⟨n, hnN⟩, Function.update_of_ne hne]
        exact a2 j hj.1
      · intro j hj x hx r hr
        rw [mats_set hl ⟨n, hnN⟩]
        by_cases e : j = ⟨n, hnN⟩
        · subst e
          rw [Function.update_self, b4 x hx r hr, ← d3, a2 ⟨n, hnN⟩ hnd]
        · rw [Function.update_of_ne e]
          rw [List.mem_append, List.mem_singleton] at hj
          exact a3 j (hj.resolve_right fun h => e (Fin.ext h)) x hx r hr)
  refine ⟨dM', h1, h2, h3 i ?_, fun j hj x hx r hr => h4 j ?_ x hx r hr⟩
  · simp only [List.nil_append, List.mem_append, List.mem_range, List.mem_range'_1]; omega
  · have : j.1 ≠ i.1 := fun e => hj (Fin.ext e)
    simp only [List.nil_append, List.mem_append, List.mem_range, List.mem_range'_1]; omega

/-- The effect of one update of mode `i`: the right-hand side is the PP operator of the mode plus what has been
accumulated for it. -/
structure PartStep (dims : Fin N → ℕ) (R : ℕ) (V : Tensor ℝ) (Winit : List (Tensor ℝ)) (lam ratio : ℝ)
    (s s' : PartState) (i : Fin N) : Prop where
  shaped : PartShaped dims R V s'
  /-- the right-hand side -/
  rhs : ∀ x < dims i, ∀ r < R, mats s'.M i x r = Spec.mttkrp dims (arr V N) (mats Winit) i x r + mats s.dM i x r
  /-- the damped solution of the normal equations -/
  solved : ∃ X, Spec.Solves (dims i) R X (Spec.normalMat dims R lam (mats s.W) i) (mats s'.M i) ∧
    ∀ x < dims i, ∀ r < R, mats s'.dW i x r = ratio * (X x r - mats Winit i x r)
  disp : ∀ x < dims i, ∀ r < R, mats s'.W i x r = mats Winit i x r + mats s'.dW i x r
  grad : ∀ x < dims i, ∀ r < R, mats s'.G i x r = -mats s'.M i x r +
    ∑ k ∈ range R, mats s.W i x k * Spec.normalMat dims R lam (mats s.W) i k r
  /-- the accumulator of the mode is cleared, the displacement is propagated to the other modes -/
  reset : ∀ x < dims i, ∀ r < R, mats s'.dM i x r = 0
  acc : ∀ j, j ≠ i → ∀ x < dims j, ∀ r < R, mats s'.dM j x r = mats s.dM j x r +
    Spec.mttkrp dims (arr V N) (Function.update (mats Winit) i (mats s'.dW i)) j x r
  /-- nothing else changes -/
  otherW : ∀ j : Fin N, j ≠ i → s'.W[j.1]? = s.W[j.1]?
  otherD : ∀ j : Fin N, j ≠ i → s'.dW[j.1]? = s.dW[j.1]?
  otherG : ∀ j : Fin N, j ≠ i → s'.G[j.1]? = s.G[j.1]?
  otherM : ∀ j : Fin N, j ≠ i → s'.M[j.1]? = s.M[j.1]?
  rel : s'.rel = s.rel

theorem partUpdate_ok (h2 : 2 ≤ N) (ho : PPOps dims R V Winit ops) (hI : Shaped dims R V Winit) {s : PartState}
    (hs : PartShaped dims R V s) {lam ratio : ℝ} {kn : Kern ℝ} (hk : Properties.KernOk kn) (i : Fin N)
    (hpd : Spec.PosDef R (Spec.normalMat dims R lam (mats s.W) i)) :
    ∃ s', partUpdate N R lam ratio kn ops Winit s i.1 = .ok s' ∧ PartStep dims R V Winit lam ratio s s' i := by
  obtain ⟨M0, o1, o2⟩ := ho.1 i
  have hv := o2.2
  rw [compl_ex1] at hv
  obtain ⟨o3, o4⟩ := valid_single hv
  obtain ⟨Di, d1, _, d2, d3⟩ := mats_get hs.dM i
  obtain ⟨M, m1, m2, m3, m4⟩ := zipT_ok (· + ·) (A := M0) (B := Di) (by rw [o3, d2])
  rw [o3] at m3 m4
  have m4' : ∀ x < dims i, ∀ r < R, mat M x r =
      Spec.mttkrp dims (arr V N) (mats Winit) i x r + mats s.dM i x r := by
    intro x hx r hr
    rw [← o4 x hx r hr, d3]
    exact m4 _ (fits_two.2 ⟨hx, hr⟩)
  obtain ⟨S, s1, s2, s3, s4⟩ := gramS_ok h2 hs.W lam i (index := swapIdx N i.1) (fun m => mem_swapIdx i.2) (swapIdx_nodup i.1)
  obtain ⟨Wi, w1, _, w2, w3⟩ := mats_get hs.W i
  obtain ⟨T, t1, _, t3, t4⟩ := einsum_matmul w2 s3
  obtain ⟨g, g1, g2, g3, g4⟩ := zipT_ok (fun a b : ℝ => -a + b) (A := M) (B := T) (by rw [m3, t3])
  rw [m3] at g3 g4
  obtain ⟨W0, a1, _, a2, a3⟩ := mats_get hI i
  have hpd' : Spec.PosDef R (mat S) := by rw [s4]; exact hpd
  have hu := hk.svd R S s3 hpd'.1
  obtain ⟨X0, D, X, x1, x2, x3, x4, x5, x6⟩ := svdSolveMod_ok m3 a2 s3 hu (Properties.svd_nonzero hu (Properties.posDef_inj hpd')) ratio
  have hlW := hs.W.count
  have hlG := hs.G
  have hlD := hs.dW.count
  have hlM := hs.M.count
  have hldM := hs.dM.count
  obtain ⟨dM', p1, p2, p3, p4⟩ := propagate_ok ho (hs.dW.set i x3) (hs.dM.set i (T := zerosLike Di) (by exact d2)) i
  refine ⟨⟨s.W.set i.1 X0, s.G.set i.1 g, s.dW.set i.1 D, dM', s.M.set i.1 M, s.rel⟩, ?_,
    ⟨hs.W.set i x2, by simp [hs.G], hs.dW.set i x3, p2, hs.M.set i m3, hs.rel⟩, ?_, ⟨X, ?_, ?_⟩, ?_, ?_, ?_, ?_, ?_, ?_, ?_, ?_, rfl⟩
  · unfold partUpdate
    simp only [o1]
    simp only [bind, Except.bind]
    rw [d1]; simp only
    rw [m1]; simp only
    rw [s1]; simp only
    rw [w1]; simp only
    rw [m3, t1]; simp only
    rw [g1]; simp only
    rw [a1]; simp only
    rw [x1]; simp only
    rw [p1]
    rfl
  · intro x hx r hr
    rw [mats_set hlM, Function.update_self, m4' x hx r hr]
  · intro x hx r hr
    have := x4 x hx r hr
    rw [s4] at this
    rw [mats_set hlM, Function.update_self, this]
  · intro x hx r hr
    rw [mats_set hlD, Function.update_self, x5 x hx r hr, a3]
  · intro x hx r hr
    rw [mats_set hlD, mats_set hlW, Function.update_self, Function.update_self, x6 x hx r hr, a3]
  · intro x hx r hr
    rw [mats_set hlG, mats_set hlM, Function.update_self, Function.update_self, w3, ← s4, ← t4 x hx r hr]
    exact g4 _ (fits_two.2 ⟨hx, hr⟩)
  · intro x hx r hr
    rw [p3, mats_set hldM, Function.update_self, zerosLike_mat]
  · intro j hj x hx r hr
    rw [p4 j hj x hx r hr, mats_set hldM, Function.update_of_ne hj]
  all_goals
    intro j hj
    exact List.getElem?_set_ne (fun e => hj (Fin.ext e.symm))

/-- A sequence of updates of the listed modes. -/
inductive PartRun (dims : Fin N → ℕ) (R : ℕ) (V : Tensor ℝ) (Winit : List (Tensor ℝ)) (lam ratio : ℝ) :
    List (Fin N) → PartState → PartState → Prop
  | nil (s : PartState) : PartRun dims R V Winit lam ratio [] s s
  | cons {i : Fin N} {l : List (Fin N)} {s s' s'' : PartState} : PartStep dims R V Winit lam ratio s s' i →
      PartRun dims R V Winit lam ratio l s' s'' → PartRun dims R V Winit lam ratio (i :: l) s s''

theorem partRun_ok (h2 : 2 ≤ N) (ho : PPOps dims R V Winit ops) (hI : Shaped dims R V Winit) {lam ratio : ℝ}
    (hl : 0 < lam) (hd : ∀ j, 0 < dims j) {kn : Kern ℝ} (hk : Properties.KernOk kn) (sel : List (Fin N)) :
    ∀ {s : PartState}, PartShaped dims R V s → ∃ s1,
      (sel.map Fin.val).foldlM (fun (s : PartState) (i : ℕ) => partUpdate N R lam ratio kn ops Winit s i) s = .ok s1 ∧
      PartRun dims R V Winit lam ratio sel s s1 ∧ PartShaped dims R V s1 := by
  induction sel with
  | nil => intro s hs; exact ⟨s, rfl, .nil s, hs⟩
  | cons i l ih =>
    intro s hs
    obtain ⟨s', a1, a2⟩ := partUpdate_ok h2 ho hI hs hk i (Spec.normalMat_posDef hl (hd i)) (ratio := ratio)
    obtain ⟨s1, b1, b2, b3⟩ := ih a2.shaped
    refine ⟨s1, ?_, .cons a2 b2, b3⟩
    rw [List.map_cons, List.foldlM_cons, a1]
    exact b1

theorem relatives_ok {dM M : List (Tensor ℝ)} (h1 : dM.length = N) (h2 : M.length = N) :
    ∃ l, relatives N dM M = .ok l ∧ l.length = N := by
  unfold relatives
  rw [mapM_ok (g := fun i => relQuot (norm2 (dM.getD i ⟨[], fun _ => 0⟩)) (norm2 (M.getD i ⟨[], fun _ => 0⟩)))]
  · exact ⟨_, rfl, by simp⟩
  · intro i hi
    rw [List.mem_range] at hi
    simp [rd, bind, Except.bind, pure, Except.pure, List.getElem?_eq_getElem (h1.symm ▸ hi : i < dM.length),
      List.getElem?_eq_getElem (h2.symm ▸ hi : i < M.length)]

/-- Reading the first `n` entries and acting on each is acting on the prefix. -/
theorem foldlM_take {α β : Type} (l : List β) (f : α → β → Except Fault α) (n : ℕ) (hn : n ≤ l.length) (a : α) :
    (List.range n).foldlM (fun (a : α) (m : ℕ) => do let i ← rd l m; f a i) a = (l.take n).foldlM f a := by
  induction n generalizing a with
  | zero => rfl
  | succ n ih =>
    rw [List.range_succ, List.foldlM_append, ih (by omega), List.take_succ, List.foldlM_append]
    congr 1
    funext b
    rw [List.getElem?_eq_getElem (by omega : n < l.length)]
    simp [List.foldlM_cons, rd, bind, Except.bind, List.getElem?_eq_getElem (by omega : n < l.length)]

end Model
