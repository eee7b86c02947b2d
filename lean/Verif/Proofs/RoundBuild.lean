import Verif.Proofs.RoundUpd
import Verif.Proofs.Build

/-! Rounding errors of `build_V`. -/

namespace Model

open Finset

variable {W : List (Tensor ℝ)} {R : ℕ} {dn : ℕ → ℕ}

theorem exists_env : ∀ {s : List Label}, s.Nodup → ∀ {idx : List ℕ}, s.length = idx.length → ∃ env : Label → ℕ, s.map env = idx
  | [], _, [], _ => ⟨fun _ => 0, rfl⟩
  | a :: s, hn, x :: idx, hl => by
    obtain ⟨env, h⟩ := exists_env (List.nodup_cons.1 hn).2 (idx := idx) (by simpa using hl)
    refine ⟨Function.update env a x, ?_⟩
    rw [List.map_cons, Function.update_self, ← h]
    congr 1
    refine List.map_congr_left fun l hm => Function.update_of_ne ?_ _ _
    rintro rfl
    exact (List.nodup_cons.1 hn).1 hm

theorem Rep.ext_canon {A B : Tensor ℝ} {s : List Label} (hs : s.Nodup) {d : Label → ℕ} {f : (Label → ℕ) → ℝ} (hA : Canon A) (hB : Canon B)
    (h1 : Rep A s d f) (h2 : Rep B s d f) : A = B := by
  refine Tensor.ext_canon hA hB (h1.1.trans h2.1.symm) fun idx hfit => ?_
  obtain ⟨env, rfl⟩ := exists_env hs (idx := idx) (by rw [← fits_length hfit, h1.1]; simp)
  rw [h1.1, fits_map] at hfit
  rw [h1.2 env hfit, h2.2 env hfit]

theorem absW_get {m : ℕ} (hW : ∀ j < m, ∃ M, W[j]? = some M ∧ M.lens = [dn j, R]) :
    ∀ j < m, ∃ M, (W.map absT)[j]? = some M ∧ M.lens = [dn j, R] := by
  intro j hj
  obtain ⟨M, h1, h2⟩ := hW j hj
  exact ⟨absT M, by simp [h1], h2⟩

theorem buildStepR_ok {B : ℕ} {u : ℝ} {P : Arith} (hP : RoundOk B u P) (hu : 0 ≤ u) (hB : 1 ≤ B) {i m : ℕ} (hi : i < m) (hm : m ≤ 19)
    (h0 : 0 < m) (hd : ∀ j < m, dn j ≤ B) (hR : R ≤ B)
    (hW : ∀ j < m, ∃ M, W[j]? = some M ∧ M.lens = [dn j, R]) {E A T : Tensor ℝ} {c : ℝ} (hc : 1 ≤ c)
    (hE : Rep E ((List.range i).map cl ++ [star]) (dB R dn) (krProd W i))
    (hA : Rep A ((List.range i).map cl ++ [star]) (dB R dn) (krProd (W.map absT) i)) (hT : RelT c E A T) :
    ∃ E' A' T', buildStepR P W T i = .ok T' ∧ Rep E' ((List.range (i + 1)).map cl ++ [star]) (dB R dn) (krProd W (i + 1)) ∧
      Rep A' ((List.range (i + 1)).map cl ++ [star]) (dB R dn) (krProd (W.map absT) (i + 1)) ∧ RelT (c * (1 + u)) E' A' T' := by
  have redu : ∀ (ev : List ℕ → List Label → List (Tensor ℝ × List Label) → Except Fault (Tensor ℝ)) (W : List (Tensor ℝ)) (V M : Tensor ℝ),
      (∀ j < m, ∃ M, W[j]? = some M ∧ M.lens = [dn j, R]) → W[i]? = some M →
      buildStepR ⟨ev, zipT⟩ W V i = ev ((List.range (i + 1)).map dn ++ [R]) ((List.range (i + 1)).map cl ++ [star])
        [(V, (List.range i).map cl ++ [star]), (M, [cl i, star])] := by
    intro ev W V M hW h1
    obtain ⟨M0, h10, h20⟩ := hW 0 h0
    unfold buildStepR
    rw [rows_ok (m := i + 1) (fun j hj => hW j (by omega)), mapM_chr (by omega), mapM_chr (by omega), chr_ok (by omega)]
    have e0 : rd W 0 = .ok M0 := by simp [rd, h10]
    have e1 : rd W (i : ℤ) = .ok M := by simp [rd, h1]
    simp only [bind, Except.bind, e0, e1, ncol, h20]
    rfl
  obtain ⟨M, h1, h2⟩ := hW i hi
  obtain ⟨E', e1, e2⟩ := buildStep_ok hi hm h0 hW hE
  obtain ⟨A', a1, a2⟩ := buildStep_ok hi hm h0 (absW_get hW) hA
  have e1' := redu einsum W E M hW h1
  have a1' := redu einsum (W.map absT) A (absT M) (absW_get hW) (by simp [h1])
  have eB : ∀ W V i, buildStepR ⟨einsum, zipT⟩ W V i = buildStep W V i := fun _ _ _ => rfl
  rw [eB, e1] at e1'
  rw [eB, a1] at a1'
  obtain ⟨A'', T', b1, b2, b3⟩ := ev_rel hP hu (lens := (List.range (i + 1)).map dn ++ [R]) (sc := (List.range (i + 1)).map cl ++ [star])
    (l := [⟨E, A, T, (List.range i).map cl ++ [star], c⟩, ⟨M, absT M, M, [cl i, star], 1⟩]) (by simp) (by simp)
    (by
      intro q hq
      simp only [List.mem_cons, List.not_mem_nil, or_false] at hq
      rcases hq with rfl | rfl
      · exact ⟨hc, hT⟩
      · exact ⟨le_rfl, RelT.exact M⟩) (E' := E') e1'.symm (by
      apply nTerms_le hB star
      · intro o ho l' hl' hn
        exfalso
        rw [List.take_of_length_le (by simp)] at hn
        have hl' := List.mem_of_mem_take hl'
        simp only [List.map_cons, List.map_nil, List.mem_cons, List.not_mem_nil, or_false] at ho
        rcases ho with rfl | rfl
        · simp only [List.mem_append, mem_cls, List.mem_singleton] at hl' hn
          rcases hl' with ⟨j, hj, rfl⟩ | rfl
          · exact hn (.inl ⟨j, by omega, rfl⟩)
          · exact hn (.inr rfl)
        · simp only [List.mem_append, mem_cls, List.mem_singleton, List.mem_cons, List.not_mem_nil, or_false] at hl' hn
          rcases hl' with rfl | rfl
          · exact hn (.inl ⟨i, by omega, rfl⟩)
          · exact hn (.inr rfl)
      · intro o ho n hn
        simp only [List.map_cons, List.map_nil, List.mem_cons, List.not_mem_nil, or_false] at ho
        rcases ho with rfl | rfl
        · rw [hE.1, List.map_append, map_dB] at hn
          simp only [List.mem_append, List.mem_map, List.mem_range, List.map_cons, List.map_nil, dB_star, List.mem_singleton] at hn
          rcases hn with ⟨k, hk, rfl⟩ | rfl
          · exact hd k (by omega)
          · exact hR
        · simp only [h2, List.mem_cons, List.not_mem_nil, or_false] at hn
          rcases hn with rfl | rfl
          · exact hd i hi
          · exact hR)
  simp only [List.map_cons, List.map_nil, List.prod_cons, List.prod_nil, mul_one] at b1 b2 b3
  rw [← a1'] at b1
  rw [← Except.ok.inj b1] at b3
  refine ⟨E', A', T', ?_, e2, a2, b3⟩
  have := redu P.ev W T M hW h1
  rw [b2] at this
  exact this

/-- `build_V` with rounding errors. -/
theorem buildVR_ok {B : ℕ} {u : ℝ} {P : Arith} (hP : RoundOk B u P) (hu : 0 ≤ u) (hB : 1 ≤ B) {N : ℕ} (h2 : 2 ≤ N) (hN : N ≤ 19)
    (hd : ∀ j < N, dn j ≤ B) (hR : R ≤ B)
    (hW : ∀ j < N, ∃ M, W[j]? = some M ∧ M.lens = [dn j, R]) :
    ∃ E A T, buildV W N = .ok E ∧ buildV (W.map absT) N = .ok A ∧ buildVR P W N = .ok T ∧ RelT ((1 + u) ^ (N - 1)) E A T := by
  obtain ⟨M0, h10, h20⟩ := hW 0 (by omega)
  have hbase : Rep M0 ((List.range 1).map cl ++ [star]) (dB R dn) (krProd W 1) := by
    refine ⟨by simp [List.range_succ, h20, dB_cl, dB_star], fun env _ => ?_⟩
    simp [List.range_succ, krProd, matN, h10, mat]
  have hbaseA : Rep (absT M0) ((List.range 1).map cl ++ [star]) (dB R dn) (krProd (W.map absT) 1) := by
    refine ⟨by simp [List.range_succ, h20, dB_cl, dB_star, absT], fun env _ => ?_⟩
    simp [List.range_succ, krProd, matN, h10, mat, absT]
  have h1u : (1 : ℝ) ≤ 1 + u := by linarith
  obtain ⟨T, t1, E, A, v1, v2, v3⟩ := foldlM_range'_inv
    (P := fun i T => ∃ E A, Rep E ((List.range i).map cl ++ [star]) (dB R dn) (krProd W i) ∧
      Rep A ((List.range i).map cl ++ [star]) (dB R dn) (krProd (W.map absT) i) ∧ RelT ((1 + u) ^ (i - 1)) E A T)
    (f := buildStepR P W) (s := 1) (n := N - 1 - 1) ⟨M0, absT M0, hbase, hbaseA, by simpa using RelT.exact M0⟩
    (by
      rintro j a g1 g2 ⟨E, A, g3, g4, g5⟩
      obtain ⟨E', A', T', k1, k2, k3, k4⟩ := buildStepR_ok hP hu hB (m := N) (by omega) hN (by omega) hd hR hW (one_le_pow₀ h1u) g3 g4 g5
      rw [← pow_succ, show j - 1 + 1 = j + 1 - 1 by omega] at k4
      exact ⟨T', k1, E', A', k2, k3, k4⟩)
  rw [show 1 + (N - 1 - 1) = N - 1 by omega] at v1 v2
  rw [show 1 + (N - 1 - 1) - 1 = N - 2 by omega] at v3
  obtain ⟨Ml, h1l, h2l⟩ := hW (N - 1) (by omega)
  have hset : ((List.range N).map cl).set (N - 1) star = (List.range (N - 1)).map cl ++ [star] := by
    obtain ⟨n, rfl⟩ : ∃ n, N = n + 1 := ⟨N - 1, by omega⟩
    simp [List.range_succ]
  -- the last contraction, for any evaluation
  have redu : ∀ (P : Arith) (W : List (Tensor ℝ)) (V M0 M : Tensor ℝ),
      (∀ j < N, ∃ M, W[j]? = some M ∧ M.lens = [dn j, R]) → W[0]? = some M0 → W[N - 1]? = some M →
      (List.range' 1 (N - 1 - 1)).foldlM (buildStepR P W) M0 = .ok V →
      buildVR P W N = P.ev ((List.range N).map dn) ((List.range N).map cl) [(V, (List.range (N - 1)).map cl ++ [star]), (M, [cl (N - 1), star])] := by
    intro P W V M0 M hW h0 h1 hf
    unfold buildVR
    have e0 : rd W 0 = .ok M0 := by simp [rd, h0]
    have e1 : rd W ((N : ℤ) - 1) = .ok M := by
      have : ((N : ℤ) - 1) = ((N - 1 : ℕ) : ℤ) := by omega
      rw [this]; simp [rd, h1]
    simp only [e0, bind, Except.bind, hf, mapM_chr hN, chr_ok (show N - 1 < 19 by omega), e1]
    have := rows_ok (m := N) hW
    simp only [bind, Except.bind] at this
    rw [this]
    simp only [hset]
  -- exact versions: any tensors with these entries give the same contraction
  have exactRun : ∀ (W : List (Tensor ℝ)) (M0 M V : Tensor ℝ),
      (∀ j < N, ∃ M, W[j]? = some M ∧ M.lens = [dn j, R]) → W[0]? = some M0 → W[N - 1]? = some M →
      Rep V ((List.range (N - 1)).map cl ++ [star]) (dB R dn) (krProd W (N - 1)) →
      ∃ T, buildV W N = .ok T ∧
        einsum ((List.range N).map dn) ((List.range N).map cl) [(V, (List.range (N - 1)).map cl ++ [star]), (M, [cl (N - 1), star])] = .ok T := by
    intro W M0 M V hW h0 h1 hV
    have hl : M.lens = [dn (N - 1), R] := by
      obtain ⟨M', m1, m2⟩ := hW (N - 1) (by omega)
      rw [h1] at m1
      cases m1
      exact m2
    obtain ⟨T, t1, t2, t3⟩ := buildV_ok h2 hN hW
    have hMl : Rep M [cl (N - 1), star] (dB R dn) fun env => matN W (N - 1) (env (cl (N - 1))) (env star) := by
      refine ⟨by simp [hl, dB_cl, dB_star], fun env _ => ?_⟩
      simp [matN, h1, mat]
    have hnot : star ∉ (List.range N).map cl := by
      rw [mem_cls]
      rintro ⟨j, _, e⟩
      exact cl_ne_star j e.symm
    obtain ⟨T', s1, s2, s3⟩ := einsum_two (sc := (List.range N).map cl) hV hMl star (by simp) hnot
      (by
        intro l hl hn
        simp only [List.mem_append, mem_cls, List.mem_singleton] at hl hn
        rcases hl with ⟨j, hj, rfl⟩ | rfl
        · exact absurd ⟨j, by omega, rfl⟩ hn
        · rfl)
      (by
        intro l hl hn
        simp only [mem_cls, List.mem_cons, List.not_mem_nil, or_false] at hl hn
        rcases hl with rfl | rfl
        · exact absurd ⟨N - 1, by omega, rfl⟩ hn
        · rfl)
    rw [map_dB] at s1
    refine ⟨T, t1, ?_⟩
    rw [s1]
    congr 1
    refine Rep.ext_canon (List.nodup_range.map fun _ _ h => cl_inj h) s2 t2 (s3.congr fun env _ => ?_) t3
    rw [dB_star]
    refine sum_congr rfl fun r _ => ?_
    have e2 : ∀ j, Function.update env star r (cl j) = env (cl j) := fun j =>
      Function.update_of_ne (cl_ne_star j) _ _
    unfold krProd
    simp only [e2, Function.update_self]
    conv_rhs => rw [show N = N - 1 + 1 by omega, List.range_succ, List.map_append, List.prod_append]
    simp
  obtain ⟨E', e1, e2⟩ := exactRun W M0 Ml E hW h10 h1l v1
  obtain ⟨A', a1, a2⟩ := exactRun (W.map absT) (absT M0) (absT Ml) A (absW_get hW) (by simp [h10]) (by simp [h1l]) v2
  obtain ⟨A'', T', b1, b2, b3⟩ := ev_rel hP hu (lens := (List.range N).map dn) (sc := (List.range N).map cl)
    (l := [⟨E, A, T, (List.range (N - 1)).map cl ++ [star], (1 + u) ^ (N - 2)⟩, ⟨Ml, absT Ml, Ml, [cl (N - 1), star], 1⟩]) (by simp) (by simp)
    (by
      intro q hq
      simp only [List.mem_cons, List.not_mem_nil, or_false] at hq
      rcases hq with rfl | rfl
      · exact ⟨one_le_pow₀ h1u, v3⟩
      · exact ⟨le_rfl, RelT.exact Ml⟩) (E' := E') e2 (by
      apply nTerms_le hB star
      · intro o ho l' hl' hn
        rw [List.take_of_length_le (by simp)] at hn
        have hl' := List.mem_of_mem_take hl'
        simp only [List.map_cons, List.map_nil, List.mem_cons, List.not_mem_nil, or_false] at ho
        rcases ho with rfl | rfl
        · simp only [List.mem_append, mem_cls, List.mem_singleton] at hl' hn
          rcases hl' with ⟨j, hj, rfl⟩ | rfl
          · exact absurd ⟨j, by omega, rfl⟩ hn
          · rfl
        · simp only [mem_cls, List.mem_cons, List.not_mem_nil, or_false] at hl' hn
          rcases hl' with rfl | rfl
          · exact absurd ⟨N - 1, by omega, rfl⟩ hn
          · rfl
      · intro o ho n hn
        simp only [List.map_cons, List.map_nil, List.mem_cons, List.not_mem_nil, or_false] at ho
        rcases ho with rfl | rfl
        · rw [v1.1, List.map_append, map_dB] at hn
          simp only [List.mem_append, List.mem_map, List.mem_range, List.map_cons, List.map_nil, dB_star, List.mem_singleton] at hn
          rcases hn with ⟨k, hk, rfl⟩ | rfl
          · exact hd k (by omega)
          · exact hR
        · simp only [h2l, List.mem_cons, List.not_mem_nil, or_false] at hn
          rcases hn with rfl | rfl
          · exact hd _ (by omega)
          · exact hR)
  simp only [List.map_cons, List.map_nil, List.prod_cons, List.prod_nil, mul_one] at b1 b2 b3
  rw [a2] at b1
  rw [← Except.ok.inj b1, ← pow_succ, show N - 2 + 1 = N - 1 by omega] at b3
  exact ⟨E', A', T', e1, a1, by rw [redu P W T M0 Ml hW h10 h1l t1]; exact b2, b3⟩

end Model
