import Verif.Properties.PPPart

/-! # C50: the right-hand sides of the partial-update variant -/

namespace Properties

open Model Finset

variable {N : ℕ} {dims : Fin N → ℕ} {R : ℕ} {V : Tensor ℝ} {Winit : List (Tensor ℝ)} {ops : Cache ℝ}

/-- Updates of the listed modes, interleaved with arbitrary changes of factors and priorities (such as `Normalize` and
the re-sorting at the end of a sweep), that is any sequence of sweeps. -/
inductive PartHist (dims : Fin N → ℕ) (R : ℕ) (V : Tensor ℝ) (Winit : List (Tensor ℝ)) (lam ratio : ℝ) :
    List (Fin N) → PartState → PartState → Prop
  | nil (s : PartState) : PartHist dims R V Winit lam ratio [] s s
  | step {i : Fin N} {l : List (Fin N)} {s s' s'' : PartState} : PartStep dims R V Winit lam ratio s s' i →
      PartHist dims R V Winit lam ratio l s' s'' → PartHist dims R V Winit lam ratio (i :: l) s s''
  | between {l : List (Fin N)} {s s' s'' : PartState} : s'.dW = s.dW → s'.dM = s.dM →
      PartHist dims R V Winit lam ratio l s' s'' → PartHist dims R V Winit lam ratio l s s''

theorem PartHist.append {lam ratio : ℝ} {l l' : List (Fin N)} {s s' s'' : PartState}
    (h : PartHist dims R V Winit lam ratio l s s') (h' : PartHist dims R V Winit lam ratio l' s' s'') :
    PartHist dims R V Winit lam ratio (l ++ l') s s'' := by
  induction h with
  | nil s => exact h'
  | step a _ ih => exact .step a (ih h')
  | between a b _ ih => exact .between a b (ih h')

theorem PartRun.hist {lam ratio : ℝ} {l : List (Fin N)} {s s' : PartState}
    (h : PartRun dims R V Winit lam ratio l s s') : PartHist dims R V Winit lam ratio l s s' := by
  induction h with
  | nil s => exact .nil s
  | cons a _ ih => exact .step a ih

/-- A sweep of the code (see `C32_partial_update`) is such a sequence. -/
theorem C50_sweep_hist {lam ratio : ℝ} {sel : List (Fin N)} {s s1 s' : PartState}
    (h : PartRun dims R V Winit lam ratio sel s s1) (h1 : s'.dW = s1.dW) (h2 : s'.dM = s1.dM) :
    PartHist dims R V Winit lam ratio sel s s' := by
  have := (PartRun.hist h).append (.between h1 h2 (.nil s'))
  rwa [List.append_nil] at this

/-- The list visits the modes cyclically in the order `cyc`. -/
inductive Follows : List (Fin N) → List (Fin N) → Prop
  | nil (cyc : List (Fin N)) : Follows cyc []
  | cons {j : Fin N} {t l : List (Fin N)} : Follows (t ++ [j]) l → Follows (j :: t) (j :: l)

/-- What is pending for mode `j` is the contribution of the displacements of the modes after `j` in `cyc` (`cyc` lists
the modes by the time of their last update, oldest first). -/
def Pending (dims : Fin N → ℕ) (R : ℕ) (V : Tensor ℝ) (Winit : List (Tensor ℝ)) (s : PartState) (cyc : List (Fin N)) :
    Prop :=
  ∀ a j b, cyc = a ++ j :: b → ∀ x < dims j, ∀ r < R, mats s.dM j x r =
    (b.map fun i => Spec.mttkrp dims (arr V N) (Function.update (mats Winit) i (mats s.dW i)) j x r).sum

theorem pending_start {s : PartState} {cyc : List (Fin N)} (hnd : cyc.Nodup)
    (h1 : ∀ j, ∀ x < dims j, ∀ r < R, mats s.dW j x r = (0 : ℝ)) (h2 : ∀ j, ∀ x < dims j, ∀ r < R, mats s.dM j x r = (0 : ℝ)) :
    Pending dims R V Winit s cyc := by
  intro a j b e x hx r hr
  rw [h2 j x hx r hr]
  symm
  refine List.sum_eq_zero fun y hy => ?_
  obtain ⟨i, hi, rfl⟩ := List.mem_map.1 hy
  have hij : i ≠ j := by
    rintro rfl
    rw [e, List.nodup_append] at hnd
    exact (List.nodup_cons.1 hnd.2.1).1 hi
  exact Spec.mttkrp_zero hij (fun y hy => by rw [Function.update_self]; exact h1 i y hy r hr) x

theorem pending_step {lam ratio : ℝ} {s s' : PartState} {j : Fin N} {t : List (Fin N)} (hnd : (j :: t).Nodup)
    (h : Pending dims R V Winit s (j :: t)) (hs : PartStep dims R V Winit lam ratio s s' j) :
    Pending dims R V Winit s' (t ++ [j]) := by
  intro a k b e x hx r hr
  have hjt := (List.nodup_cons.1 hnd).1
  rcases List.eq_nil_or_concat b with rfl | ⟨b', c, rfl⟩
  · obtain ⟨rfl, hk⟩ := List.append_inj' e rfl
    obtain rfl : j = k := by simpa using hk
    rw [hs.reset x hx r hr]; rfl
  · rw [List.concat_eq_append, ← List.cons_append, ← List.append_assoc] at e
    obtain ⟨rfl, hk⟩ := List.append_inj' e rfl
    obtain rfl : j = c := by simpa using hk
    have hkj : k ≠ j := by rintro rfl; exact hjt (by simp)
    rw [hs.acc k hkj x hx r hr, h (j :: a) k b' rfl x hx r hr, List.concat_eq_append, List.map_append, List.sum_append]
    congr 1
    · congr 1
      refine List.map_congr_left fun i hi => ?_
      have hij : i ≠ j := by rintro rfl; exact hjt (by simp [hi])
      rw [mats_congr (hs.otherD i hij)]
    · simp

theorem sum_list_others {cyc a b : List (Fin N)} {k : Fin N} (hnd : cyc.Nodup) (hall : ∀ i, i ∈ cyc)
    (e : cyc = a ++ k :: b) (g : Fin N → ℝ) : (a.map g).sum + (b.map g).sum = ∑ j ∈ univ.erase k, g j := by
  rw [← List.sum_append, ← List.map_append]
  rw [e] at hnd
  have hp : (a ++ k :: b).Perm (k :: (a ++ b)) := List.perm_middle
  have hnd' := List.nodup_cons.1 (hp.nodup_iff.1 hnd)
  rw [← List.sum_toFinset _ hnd'.2]
  refine Finset.sum_congr ?_ fun _ _ => rfl
  ext i
  have := hall i
  rw [e, hp.mem_iff, List.mem_cons] at this
  simp only [List.mem_toFinset, mem_erase, mem_univ, and_true]
  refine ⟨fun h => ?_, fun h => this.resolve_left h⟩
  rintro rfl
  exact hnd'.1 h

/-- **C50 (what the code computes).** In general, the right-hand side of an update of mode `k` is the first-order one
minus the contributions of the modes whose last update is older than that of `k`. -/
theorem C50_deficit {lam ratio : ℝ} {s s' : PartState} {cyc a b : List (Fin N)} {k : Fin N} (hnd : cyc.Nodup)
    (hall : ∀ i, i ∈ cyc) (h : Pending dims R V Winit s cyc) (e : cyc = a ++ k :: b)
    (hs : PartStep dims R V Winit lam ratio s s' k) : ∀ x < dims k, ∀ r < R,
      mats s'.M k x r = Spec.ppMttkrp dims (arr V N) (mats Winit) (mats s.dW) k x r -
        (a.map fun i => Spec.mttkrp dims (arr V N) (Function.update (mats Winit) i (mats s.dW i)) k x r).sum := by
  intro x hx r hr
  rw [hs.rhs x hx r hr, h a k b e x hx r hr, Spec.ppMttkrp,
    ← sum_list_others hnd hall e fun i => Spec.mttkrp dims (arr V N) (Function.update (mats Winit) i (mats s.dW i)) k x r]
  ring

/-- **C50 (fixed cyclic order).** Start of a phase (no displacement, nothing pending), any number of sweeps that visit
all modes cyclically in one order: every right-hand side is the first-order one for the displacements at that moment. -/
theorem C50_cyclic_exact {lam ratio : ℝ} {cyc : List (Fin N)} (hnd : cyc.Nodup) (hall : ∀ i, i ∈ cyc) {s : PartState}
    (h1 : ∀ j, ∀ x < dims j, ∀ r < R, mats s.dW j x r = (0 : ℝ)) (h2 : ∀ j, ∀ x < dims j, ∀ r < R, mats s.dM j x r = (0 : ℝ))
    {pre : List (Fin N)} {i : Fin N} (hf : Follows cyc (pre ++ [i])) {s1 s2 : PartState}
    (hh : PartHist dims R V Winit lam ratio pre s s1) (hs : PartStep dims R V Winit lam ratio s1 s2 i) :
    ∀ x < dims i, ∀ r < R, mats s2.M i x r = Spec.ppMttkrp dims (arr V N) (mats Winit) (mats s1.dW) i x r := by
  have main : ∀ (pre : List (Fin N)) (s s1 : PartState), PartHist dims R V Winit lam ratio pre s s1 →
      ∀ (cyc : List (Fin N)), cyc.Nodup → (∀ i, i ∈ cyc) → Pending dims R V Winit s cyc → Follows cyc (pre ++ [i]) →
      PartStep dims R V Winit lam ratio s1 s2 i →
      ∀ x < dims i, ∀ r < R, mats s2.M i x r = Spec.ppMttkrp dims (arr V N) (mats Winit) (mats s1.dW) i x r := by
    intro pre s s1 hh
    induction hh with
    | nil s =>
      intro cyc hnd hall hp hf hs x hx r hr
      cases hf
      rw [C50_deficit (a := []) hnd hall hp rfl hs x hx r hr]
      simp
    | @step j l s s' s'' st _ ih =>
      intro cyc hnd hall hp hf hs
      cases hf with
      | @cons j t l' hf =>
        refine ih (t ++ [j]) ?_ ?_ (pending_step hnd hp st) hf hs
        · exact (List.perm_append_singleton j t).nodup_iff.2 hnd
        · intro i; exact (List.perm_append_singleton j t).mem_iff.2 (hall i)
    | @between l s s' s'' e1 e2 _ ih =>
      intro cyc hnd hall hp hf hs
      refine ih cyc hnd hall ?_ hf hs
      intro a j b e x hx r hr
      rw [e1, e2]
      exact hp a j b e x hx r hr
  exact main pre s s1 hh cyc hnd hall (pending_start hnd h1 h2) hf hs

/-- The first sweep of a phase is always of that form, whatever modes it selects in whatever order. -/
theorem C50_first_sweep {lam ratio : ℝ} {sel : List (Fin N)} (hnd : sel.Nodup) {s : PartState}
    (h1 : ∀ j, ∀ x < dims j, ∀ r < R, mats s.dW j x r = (0 : ℝ)) (h2 : ∀ j, ∀ x < dims j, ∀ r < R, mats s.dM j x r = (0 : ℝ))
    {pre post : List (Fin N)} {i : Fin N} (hsel : sel = pre ++ i :: post) {s1 s2 : PartState}
    (hh : PartRun dims R V Winit lam ratio pre s s1) (hs : PartStep dims R V Winit lam ratio s1 s2 i) :
    ∀ x < dims i, ∀ r < R, mats s2.M i x r = Spec.ppMttkrp dims (arr V N) (mats Winit) (mats s1.dW) i x r := by
  classical
  set cyc := sel ++ (List.finRange N).filter (· ∉ sel) with hcyc
  have hfol : ∀ (l m : List (Fin N)), Follows (l ++ m) l := by
    intro l
    induction l with
    | nil => intro m; exact .nil _
    | cons j l ih =>
      intro m
      rw [List.cons_append]
      refine .cons ?_
      rw [List.append_assoc]
      exact ih _
  refine C50_cyclic_exact (cyc := cyc) ?_ ?_ h1 h2 (pre := pre) ?_ (PartRun.hist hh) hs
  · rw [hcyc, List.nodup_append]
    refine ⟨hnd, (List.nodup_finRange N).filter _, ?_⟩
    rintro a ha b hb rfl
    simp [ha] at hb
  · intro i
    by_cases h : i ∈ sel <;> simp [hcyc, h]
  · rw [hcyc, hsel, show pre ++ i :: post = (pre ++ [i]) ++ post by simp, List.append_assoc]
    exact hfol _ _

/-! A concrete run: order 3, all lengths 1, rank 1, tensor 2, factors 1, no regularisation, step ratio 4/3, all modes
updated in every sweep. -/

/-- The tensor. -/
noncomputable def tinyV2 : Tensor ℝ := ⟨[1, 1, 1], fun _ => 2⟩

theorem tinyShaped2 (a : ℝ) : Shaped (N := 3) (fun _ => 1) 1 tinyV2 (tinyW a) where
  lensV := rfl
  count := rfl
  lensW := (tinyShaped a).lensW

theorem tinyW_val (a : ℝ) (j : Fin 3) : mats (tinyW a) j 0 0 = a := by fin_cases j <;> rfl

theorem tiny_contrib (D : ℕ → ℕ → ℝ) {i j : Fin 3} (hij : j ≠ i) :
    Spec.mttkrp (fun _ => 1) (arr tinyV2 3) (Function.update (mats (tinyW 1)) i D) j 0 0 = 2 * D 0 0 := by
  rw [tiny_mttkrp]
  have hv : ∀ f, arr tinyV2 3 f = 2 := fun _ => rfl
  rw [hv, prod_eq_single_of_mem i (by simp [hij.symm]) (fun k _ hk => by rw [Function.update_of_ne hk]; exact tinyW_val 1 k),
    Function.update_self]

theorem tiny_op (i : Fin 3) : Spec.mttkrp (fun _ => 1) (arr tinyV2 3) (mats (tinyW 1)) i 0 0 = 2 := by
  rw [tiny_mttkrp]
  have hv : ∀ f, arr tinyV2 3 f = 2 := fun _ => rfl
  rw [hv]
  simp [tinyW_val]

/-- One update of the concrete run, in numbers. -/
structure TinyStep (s s' : PartState) (i : Fin 3) : Prop where
  shaped : PartShaped (N := 3) (fun _ => 1) 1 tinyV2 s'
  rhs : mats s'.M i 0 0 = 2 + mats s.dM i 0 0
  sol : (1 + 3 / 4 * mats s'.dW i 0 0) * ∏ j ∈ univ.erase i, mats s.W j 0 0 ^ 2 = mats s'.M i 0 0
  disp : mats s'.W i 0 0 = 1 + mats s'.dW i 0 0
  reset : mats s'.dM i 0 0 = (0 : ℝ)
  acc : ∀ j, j ≠ i → mats s'.dM j 0 0 = mats s.dM j 0 0 + 2 * mats s'.dW i 0 0
  oW : ∀ j, j ≠ i → (mats s'.W j 0 0 : ℝ) = mats s.W j 0 0
  oD : ∀ j, j ≠ i → (mats s'.dW j 0 0 : ℝ) = mats s.dW j 0 0
  oM : ∀ j, j ≠ i → (mats s'.M j 0 0 : ℝ) = mats s.M j 0 0

theorem tiny_part_step {ops : Cache ℝ} (ho : PPOps (N := 3) (fun _ => 1) 1 tinyV2 (tinyW 1) ops) {s : PartState}
    (hs : PartShaped (N := 3) (fun _ => 1) 1 tinyV2 s) {kn : Kern ℝ} (hk : KernOk kn) (i : Fin 3)
    (hpos : ∀ j : Fin 3, mats s.W j 0 0 ≠ (0 : ℝ)) :
    ∃ s', partUpdate 3 1 0 (4 / 3) kn ops (tinyW 1) s i.1 = .ok s' ∧ TinyStep s s' i := by
  obtain ⟨s', h1, h2⟩ := partUpdate_ok (by omega) ho (tinyShaped2 1) hs hk i (lam := 0) (ratio := 4 / 3) (tiny_posDef (by
    rw [tiny_normal]
    exact prod_pos fun j _ => by have := hpos j; positivity))
  have z : (0 : ℕ) < 1 := by omega
  refine ⟨s', h1, h2.shaped, ?_, ?_, ?_, h2.reset 0 z 0 z, ?_, ?_, ?_, ?_⟩
  · rw [h2.rhs 0 z 0 z, tiny_op]
  · obtain ⟨X, x1, x2⟩ := h2.solved
    have e1 := x1 0 z 0 z
    have e2 := x2 0 z 0 z
    rw [tinyW_val] at e2
    simp only [range_one, sum_singleton, tiny_normal] at e1
    rw [← e1, e2]
    congr 1
    ring
  · have := h2.disp 0 z 0 z
    rwa [tinyW_val] at this
  · intro j hj
    rw [h2.acc j hj 0 z 0 z, tiny_contrib _ hj]
  · intro j hj; rw [mats_congr (h2.otherW j hj)]
  · intro j hj; rw [mats_congr (h2.otherD j hj)]
  · intro j hj; rw [mats_congr (h2.otherM j hj)]

/-- **C50 (violation).** In this run the second sweep does not keep the order of the first (`0, 1, 2`): it starts with mode 1, and the
right-hand side of that update is not the first-order one. -/
theorem C50_concrete (kn : Kern ℝ) (hk : KernOk kn) {srt : List Rel → List ℕ} (hsort : SortSpec srt)
    (hst : srt (List.replicate 3 (some ((0 : ℝ) : WithTop ℝ))) = [0, 1, 2]) :
    ∃ ops s1 s2, ppOperators true 3 tinyV2 (tinyW 1) = .ok ops ∧
      partSweep 3 1 0 (4 / 3) 1 kn srt ops (tinyW 1) (partInit 3 (tinyW 1) (tinyW 0) (tinyW 0)) = .ok s1 ∧
      sortIndexes srt s1.rel = .ok [1, 0, 2] ∧
      partUpdate 3 1 0 (4 / 3) kn ops (tinyW 1) s1 1 = .ok s2 ∧
      mats (N := 3) s2.M 1 0 0 ≠
        Spec.ppMttkrp (fun _ => 1) (arr tinyV2 3) (mats (tinyW 1)) (mats s1.dW) (1 : Fin 3) 0 0 := by
  obtain ⟨ops, h1, h2⟩ := ppOperators_ok (N := 3) (by norm_num) (by norm_num) true (tinyShaped2 1)
  obtain ⟨e0, e1, e2⟩ := tiny_erase
  set s0 := partInit 3 (tinyW 1) (tinyW 0) (tinyW 0) with hs0
  have z0 : (tinyW 1).map zerosLike = tinyW 0 := rfl
  have hsh0 : PartShaped (N := 3) (fun _ => 1) 1 tinyV2 s0 :=
    ⟨tinyShaped2 1, rfl, tinyShaped2 0, by rw [hs0]; unfold partInit; rw [z0]; exact tinyShaped2 0,
      by rw [hs0]; unfold partInit; rw [z0]; exact tinyShaped2 0, rfl⟩
  have W0 : ∀ j : Fin 3, mats s0.W j 0 0 = (1 : ℝ) := tinyW_val 1
  have D0 : ∀ j : Fin 3, mats s0.dW j 0 0 = (0 : ℝ) := tinyW_val 0
  have M0 : ∀ j : Fin 3, mats s0.dM j 0 0 = (0 : ℝ) := tinyW_val 0
  -- mode 0
  obtain ⟨t1, a1, a2⟩ := tiny_part_step h2 hsh0 hk 0 (by intro j; rw [W0]; norm_num)
  have aM := a2.rhs
  have aS := a2.sol
  rw [aM] at aS
  simp only [e0, W0, M0, mem_singleton, Fin.reduceEq, not_false_eq_true, prod_insert, prod_singleton] at aS aM
  have ad0 : mats (N := 3) t1.dW 0 0 0 = (4 / 3 : ℝ) := by linarith
  have aw0 : mats (N := 3) t1.W 0 0 0 = (7 / 3 : ℝ) := by rw [a2.disp, ad0]; norm_num
  have aw1 : mats (N := 3) t1.W 1 0 0 = (1 : ℝ) := (a2.oW 1 (by decide)).trans (W0 1)
  have aw2 : mats (N := 3) t1.W 2 0 0 = (1 : ℝ) := (a2.oW 2 (by decide)).trans (W0 2)
  have am0 : mats (N := 3) t1.dM 0 0 0 = (0 : ℝ) := a2.reset
  have am1 : mats (N := 3) t1.dM 1 0 0 = (8 / 3 : ℝ) := by rw [a2.acc 1 (by decide), M0, ad0]; norm_num
  have am2 : mats (N := 3) t1.dM 2 0 0 = (8 / 3 : ℝ) := by rw [a2.acc 2 (by decide), M0, ad0]; norm_num
  -- mode 1
  obtain ⟨t2, b1, b2⟩ := tiny_part_step h2 a2.shaped hk 1 (by
    intro j; fin_cases j
    · exact aw0.trans_ne (by norm_num)
    · exact aw1.trans_ne (by norm_num)
    · exact aw2.trans_ne (by norm_num))
  have bM := b2.rhs
  have bS := b2.sol
  rw [bM] at bS
  simp only [e1, aw0, aw2, am1, mem_singleton, Fin.reduceEq, not_false_eq_true, prod_insert, prod_singleton] at bS bM
  have bd1 : mats (N := 3) t2.dW 1 0 0 = (-4 / 21 : ℝ) := by linarith
  have bw1 : mats (N := 3) t2.W 1 0 0 = (17 / 21 : ℝ) := by rw [b2.disp, bd1]; norm_num
  have bw0 : mats (N := 3) t2.W 0 0 0 = (7 / 3 : ℝ) := (b2.oW 0 (by decide)).trans aw0
  have bw2 : mats (N := 3) t2.W 2 0 0 = (1 : ℝ) := (b2.oW 2 (by decide)).trans aw2
  have bm0 : mats (N := 3) t2.dM 0 0 0 = (-8 / 21 : ℝ) := by rw [b2.acc 0 (by decide), am0, bd1]; norm_num
  have bm1 : mats (N := 3) t2.dM 1 0 0 = (0 : ℝ) := b2.reset
  have bm2 : mats (N := 3) t2.dM 2 0 0 = (16 / 7 : ℝ) := by rw [b2.acc 2 (by decide), am2, bd1]; norm_num
  -- mode 2
  obtain ⟨t3, c1, c2⟩ := tiny_part_step h2 b2.shaped hk 2 (by
    intro j; fin_cases j
    · exact bw0.trans_ne (by norm_num)
    · exact bw1.trans_ne (by norm_num)
    · exact bw2.trans_ne (by norm_num))
  have cM := c2.rhs
  have cS := c2.sol
  rw [cM] at cS
  simp only [e2, bw0, bw1, bm2, mem_singleton, Fin.reduceEq, not_false_eq_true, prod_insert, prod_singleton] at cS cM
  have cd2 : mats (N := 3) t3.dW 2 0 0 = (1628 / 6069 : ℝ) := by linarith
  have cw2 : mats (N := 3) t3.W 2 0 0 = (7697 / 6069 : ℝ) := by rw [c2.disp, cd2]; norm_num
  have cw0 : mats (N := 3) t3.W 0 0 0 = (7 / 3 : ℝ) := (c2.oW 0 (by decide)).trans bw0
  have cw1 : mats (N := 3) t3.W 1 0 0 = (17 / 21 : ℝ) := (c2.oW 1 (by decide)).trans bw1
  have cd0 : mats (N := 3) t3.dW 0 0 0 = (4 / 3 : ℝ) := (c2.oD 0 (by decide)).trans ((b2.oD 0 (by decide)).trans ad0)
  have cm0 : mats (N := 3) t3.dM 0 0 0 = (944 / 6069 : ℝ) := by rw [c2.acc 0 (by decide), bm0, cd2]; norm_num
  have cm1 : mats (N := 3) t3.dM 1 0 0 = (3256 / 6069 : ℝ) := by rw [c2.acc 1 (by decide), bm1, cd2]; norm_num
  have cm2 : mats (N := 3) t3.dM 2 0 0 = (0 : ℝ) := c2.reset
  have cM0 : mats (N := 3) t3.M 0 0 0 = (2 : ℝ) :=
    (c2.oM 0 (by decide)).trans ((b2.oM 0 (by decide)).trans (aM.trans (by norm_num)))
  have cM1 : mats (N := 3) t3.M 1 0 0 = (14 / 3 : ℝ) := (c2.oM 1 (by decide)).trans (bM.trans (by norm_num))
  have cM2 : mats (N := 3) t3.M 2 0 0 = (30 / 7 : ℝ) := cM.trans (by norm_num)
  -- end of the sweep
  obtain ⟨rel, r1, r2, r3⟩ := relatives_eq c2.shaped.dM c2.shaped.M
  obtain ⟨W', n1, n2, -, ⟨c, n3, -, n4⟩, -⟩ := C17_normalize (N := 3) (by norm_num) c2.shaped.W (by
    intro j
    rw [tiny_facNorm]
    fin_cases j
    · exact (congrArg abs cw0).trans_ne (by norm_num)
    · exact (congrArg abs cw1).trans_ne (by norm_num)
    · exact (congrArg abs cw2).trans_ne (by norm_num))
  set s1 : PartState := { t3 with W := W', rel := rel } with hs1
  have hsh1 : PartShaped (N := 3) (fun _ => 1) 1 tinyV2 s1 :=
    ⟨n2, c2.shaped.G, c2.shaped.dW, c2.shaped.dM, c2.shaped.M, r2⟩
  have rr0 : relAt rel 0 = some ((472 / 6069 : ℝ) : WithTop ℝ) := by
    have := r3 0
    rw [tiny_facNorm, tiny_facNorm, cm0, cM0] at this
    refine this.trans ?_
    unfold relQuot
    rw [if_neg (by norm_num)]
    norm_num [abs_of_pos]
  have rr1 : relAt rel 1 = some ((1628 / 14161 : ℝ) : WithTop ℝ) := by
    have := r3 1
    rw [tiny_facNorm, tiny_facNorm, cm1, cM1] at this
    refine this.trans ?_
    unfold relQuot
    rw [if_neg (by norm_num)]
    norm_num [abs_of_pos]
  have rr2 : relAt rel 2 = some ((0 : ℝ) : WithTop ℝ) := by
    have := r3 2
    rw [tiny_facNorm, tiny_facNorm, cm2, cM2] at this
    refine this.trans ?_
    unfold relQuot
    rw [if_neg (by norm_num)]
    norm_num
  have hrel : StrictWeak rel := by
    refine C32_sortable fun hmem => ?_
    obtain ⟨n, hn, e⟩ := List.mem_iff_getElem.1 hmem
    have : relAt rel n = none := by simp [relAt, hn, e]
    rw [r2] at hn
    interval_cases n
    · rw [rr0] at this; simp at this
    · rw [rr1] at this; simp at this
    · rw [rr2] at this; simp at this
  have hsrt : srt rel = [1, 0, 2] := by
    obtain ⟨p1, p2⟩ := hsort rel hrel
    rw [r2] at p1
    refine List.Perm.eq_of_pairwise (le := fun i j => ¬ relGt (relAt rel j) (relAt rel i)) ?_ p2 ?_
      (p1.trans (by decide))
    · intro a b ha hb hab hba
      have ha' : a < 3 := List.mem_range.1 (p1.mem_iff.1 ha)
      have hb' : b < 3 := by
        simp at hb; omega
      interval_cases a <;> interval_cases b <;> first
        | rfl
        | (exfalso; simp only [rr0, rr1, rr2, relGt, WithTop.coe_lt_coe] at hab hba; norm_num at hab hba; done)
        | (exfalso; simp only [rr0, rr1, rr2, relGt, WithTop.coe_lt_coe] at hab hba; norm_num at hab; done)
        | (exfalso; simp only [rr0, rr1, rr2, relGt, WithTop.coe_lt_coe] at hab hba; norm_num at hba; done)
    · simp only [List.pairwise_cons, List.mem_cons, List.mem_singleton, List.not_mem_nil, or_false, rr0, rr1, rr2, relGt,
        WithTop.coe_lt_coe]
      simp only [forall_eq_or_imp, forall_eq, rr0, rr1, rr2, relGt, WithTop.coe_lt_coe]
      norm_num
  obtain ⟨s2, d1, d2⟩ := tiny_part_step h2 hsh1 hk 1 (by
    have hz : (0 : ℕ) < 1 := by norm_num
    intro j
    have hw : mats s1.W j 0 0 = c j * mats t3.W j 0 0 := n4 j 0 hz 0 hz
    rw [hw]
    refine mul_ne_zero (n3 j).ne' ?_
    fin_cases j
    · exact cw0.trans_ne (by norm_num)
    · exact cw1.trans_ne (by norm_num)
    · exact cw2.trans_ne (by norm_num))
  refine ⟨ops, s1, s2, h1, ?_, ?_, d1, ?_⟩
  · have hz : StrictWeak s0.rel := C32_sortable (by rw [hs0]; simp [partInit])
    unfold partSweep sortIndexes
    rw [if_pos hz, show srt s0.rel = [0, 1, 2] from hst]
    simp only [bind, Except.bind]
    unfold partUpdates
    have htr : (truncR ((3 : ℕ) * 1)).toNat = 3 := by
      rw [truncR, if_pos (by norm_num), Int.floor_toNat]
      norm_num
    rw [htr, foldlM_take [0, 1, 2] (fun (s : PartState) (i : ℕ) => partUpdate 3 1 0 (4 / 3) kn ops (tinyW 1) s i) 3 (by simp) s0]
    have a1' : partUpdate 3 1 0 (4 / 3) kn ops (tinyW 1) s0 0 = .ok t1 := a1
    have b1' : partUpdate 3 1 0 (4 / 3) kn ops (tinyW 1) t1 1 = .ok t2 := b1
    have c1' : partUpdate 3 1 0 (4 / 3) kn ops (tinyW 1) t2 2 = .ok t3 := c1
    simp only [List.take_succ_cons, List.take_zero, List.foldlM_cons, List.foldlM_nil, bind, Except.bind, a1', b1', c1', pure, Except.pure]
    rw [r1]
    simp only
    rw [n1]
  · unfold sortIndexes
    rw [if_pos hrel]
    exact congrArg _ hsrt
  · rw [d2.rhs]
    have hm : mats (N := 3) s1.dM 1 0 0 = (3256 / 6069 : ℝ) := cm1
    have hd0 : mats (N := 3) s1.dW 0 0 0 = (4 / 3 : ℝ) := cd0
    have hd2 : mats (N := 3) s1.dW 2 0 0 = (1628 / 6069 : ℝ) := cd2
    rw [hm, Spec.ppMttkrp, tiny_op, e1, sum_insert (by decide), sum_singleton, tiny_contrib _ (by decide), tiny_contrib _ (by decide),
      hd0, hd2]
    norm_num

/-- Kernels and a sorting function satisfying their contracts exist, so the violation is realised. -/
example : ∃ (kn : Kern ℝ) (srt : List Rel → List ℕ) (ops : Cache ℝ) (s1 s2 : PartState),
    ppOperators true 3 tinyV2 (tinyW 1) = .ok ops ∧
      partSweep 3 1 0 (4 / 3) 1 kn srt ops (tinyW 1) (partInit 3 (tinyW 1) (tinyW 0) (tinyW 0)) = .ok s1 ∧
      sortIndexes srt s1.rel = .ok [1, 0, 2] ∧
      partUpdate 3 1 0 (4 / 3) kn ops (tinyW 1) s1 1 = .ok s2 ∧
      mats (N := 3) s2.M 1 0 0 ≠
        Spec.ppMttkrp (fun _ => 1) (arr tinyV2 3) (mats (tinyW 1)) (mats s1.dW) (1 : Fin 3) 0 0 := by
  obtain ⟨kn, hk⟩ := exists_kernOk
  obtain ⟨srt, h1, h2⟩ := exists_sort
  obtain ⟨ops, s1, s2, h⟩ := C50_concrete kn hk h1 h2
  exact ⟨kn, srt, ops, s1, s2, h⟩

/-- The hypotheses of `C32_partial_update` are met at the start of a phase. -/
example : PartShaped (N := 3) (fun _ => 1) 1 tinyV2 (partInit 3 (tinyW 1) (tinyW 0) (tinyW 0)) ∧
    StrictWeak (partInit 3 (tinyW 1) (tinyW 0) (tinyW 0)).rel := by
  have z0 : (tinyW 1).map zerosLike = tinyW 0 := rfl
  refine ⟨⟨tinyShaped2 1, rfl, tinyShaped2 0, ?_, ?_, rfl⟩, C32_sortable (by simp [partInit])⟩ <;>
    (unfold partInit; rw [z0]; exact tinyShaped2 0)

end Properties
