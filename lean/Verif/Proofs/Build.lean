import Verif.Model.Build
import Verif.Proofs.CPOpt
import Verif.Proofs.Loop
import Mathlib.Algebra.BigOperators.Fin

namespace Model

open Finset

variable {K : Type} {N : ℕ}

/-- The `j`-th label of `build_V` (number 18 is the terminating NUL of the table). -/
def cl (j : ℕ) : Label := if j = 18 then 0 else 105 + (j : ℤ)

theorem cl_inj {i j : ℕ} (h : cl i = cl j) : i = j := by
  unfold cl at h
  change (_ : ℤ) = _ at h
  split_ifs at h <;> omega

theorem cl_ne_star (j : ℕ) : cl j ≠ star := by
  unfold cl star
  change ¬ ((_ : ℤ) = _)
  split_ifs <;> omega

theorem chr_ok {j : ℕ} (h : j < 19) : chr j = .ok (cl j) := by
  unfold chr
  rw [rd_ok (by simp [charsTab]; omega)]
  rcases Nat.lt_or_ge j 18 with h' | h'
  · simp [charsTab, List.getElem_append, h', cl, show j ≠ 18 by omega]
  · obtain rfl : j = 18 := by omega
    simp [charsTab, cl]

theorem chr_ub {j : ℕ} (h : 19 ≤ j) : chr j = .error .ub := by
  unfold chr rd
  rw [if_pos (by simp)]
  have : charsTab[(j : ℤ).toNat]? = none := by
    rw [List.getElem?_eq_none_iff]
    simp [charsTab]; omega
  rw [this]

theorem mapM_chr {m : ℕ} (h : m ≤ 19) : (List.range m).mapM chr = .ok ((List.range m).map cl) :=
  mapM_ok fun j hj => chr_ok (by have := List.mem_range.1 hj; omega)

/-- Extents: `R` for the rank label, `dn j` for the `j`-th mode label. -/
def dB (R : ℕ) (dn : ℕ → ℕ) (l : Label) : ℕ :=
  if l = star then R else if l = 0 then dn 18 else dn (l - 105).toNat

theorem dB_star (R : ℕ) (dn : ℕ → ℕ) : dB R dn star = R := by simp [dB]

theorem dB_cl (R : ℕ) (dn : ℕ → ℕ) (j : ℕ) : dB R dn (cl j) = dn j := by
  unfold dB
  rw [if_neg (cl_ne_star j)]
  unfold cl
  by_cases h : j = 18
  · simp [h]
  · rw [if_neg h, if_neg (show ¬ ((105 + (j : ℤ) : ℤ) = 0) by omega)]
    congr 1
    have : (105 + (j : ℤ) - 105) = (j : ℤ) := by ring
    rw [this]; simp

/-- Matrix number `j` of an array. -/
def matN [Zero K] (W : List (Tensor K)) (j : ℕ) (x r : ℕ) : K :=
  match W[j]? with
  | some M => mat M x r
  | none => 0

theorem mem_cls {m : ℕ} {l : Label} : l ∈ (List.range m).map cl ↔ ∃ j < m, l = cl j := by
  simp only [List.mem_map, List.mem_range, eq_comm]

theorem map_dB (R : ℕ) (dn : ℕ → ℕ) (m : ℕ) : ((List.range m).map cl).map (dB R dn) = (List.range m).map dn := by
  rw [List.map_map]
  exact List.map_congr_left fun j _ => dB_cl R dn j

section buildV

variable [CommSemiring K] {W : List (Tensor K)} {R : ℕ} {dn : ℕ → ℕ}

theorem rows_ok {m : ℕ} (hW : ∀ j < m, ∃ M, W[j]? = some M ∧ M.lens = [dn j, R]) :
    ((List.range m).mapM fun (j : ℕ) => do pure (nrow (← rd W j))) = Except.ok (ε := Fault) ((List.range m).map dn) := by
  refine mapM_ok fun j hj => ?_
  obtain ⟨M, h1, h2⟩ := hW j (List.mem_range.1 hj)
  have : rd W (j : ℤ) = .ok M := by simp [rd, h1]
  rw [this]
  simp [bind, Except.bind, pure, Except.pure, nrow, h2]

/-- What the first `i` factors have been combined to. -/
def krProd (W : List (Tensor K)) (i : ℕ) (env : Label → ℕ) : K :=
  ((List.range i).map fun j => matN W j (env (cl j)) (env star)).prod

theorem buildStep_ok {i m : ℕ} (hi : i < m) (hm : m ≤ 19) (h0 : 0 < m)
    (hW : ∀ j < m, ∃ M, W[j]? = some M ∧ M.lens = [dn j, R]) {V : Tensor K}
    (hV : Rep V ((List.range i).map cl ++ [star]) (dB R dn) (krProd W i)) :
    ∃ V', buildStep W V i = .ok V' ∧ Rep V' ((List.range (i + 1)).map cl ++ [star]) (dB R dn) (krProd W (i + 1)) := by
  obtain ⟨M, h1, h2⟩ := hW i hi
  obtain ⟨M0, h10, h20⟩ := hW 0 h0
  have hM : Rep M [cl i, star] (dB R dn) fun env => matN W i (env (cl i)) (env star) := by
    refine ⟨by simp [h2, dB_cl, dB_star], fun env _ => ?_⟩
    simp [matN, h1, mat]
  obtain ⟨T, t1, t2, t3⟩ := einsum_two_nosum (sc := (List.range (i + 1)).map cl ++ [star]) hV hM
    (by
      intro l hl
      simp only [List.mem_append, mem_cls, List.mem_singleton] at hl ⊢
      rcases hl with ⟨j, hj, rfl⟩ | rfl
      · exact Or.inl ⟨j, by omega, rfl⟩
      · exact Or.inr rfl)
    (by
      intro l hl
      simp only [List.mem_append, mem_cls, List.mem_cons, List.not_mem_nil, or_false] at hl ⊢
      rcases hl with rfl | rfl
      · exact Or.inl ⟨i, by omega, rfl⟩
      · exact Or.inr rfl)
  refine ⟨T, ?_, t3.congr fun env _ => ?_⟩
  · unfold buildStep
    rw [rows_ok (m := i + 1) (fun j hj => hW j (by omega)), mapM_chr (by omega), mapM_chr (by omega),
      chr_ok (by omega)]
    have e0 : rd W 0 = .ok M0 := by simp [rd, h10]
    have e1 : rd W (i : ℤ) = .ok M := by simp [rd, h1]
    simp only [bind, Except.bind, e0, e1, ncol, h20]
    rw [List.map_append, map_dB] at t1
    simpa [dB_star] using t1
  · unfold krProd
    rw [List.range_succ, List.map_append, List.prod_append]
    simp

/-- `build_V` on factors of matching width, orders 2 to 19 (19 with the NUL label). -/
theorem buildV_ok {N : ℕ} (h2 : 2 ≤ N) (hN : N ≤ 19)
    (hW : ∀ j < N, ∃ M, W[j]? = some M ∧ M.lens = [dn j, R]) :
    ∃ V, buildV W N = .ok V ∧ Canon V ∧ Rep V ((List.range N).map cl) (dB R dn)
      fun env => ∑ r ∈ range R, ((List.range N).map fun j => matN W j (env (cl j)) r).prod := by
  obtain ⟨M0, h10, h20⟩ := hW 0 (by omega)
  have hbase : Rep M0 ((List.range 1).map cl ++ [star]) (dB R dn) (krProd W 1) := by
    refine ⟨by simp [List.range_succ, h20, dB_cl, dB_star], fun env _ => ?_⟩
    simp [List.range_succ, krProd, matN, h10, mat]
  obtain ⟨V, v1, v2⟩ := foldlM_range'_inv
    (P := fun i V => Rep V ((List.range i).map cl ++ [star]) (dB R dn) (krProd W i))
    (f := buildStep W) (s := 1) (n := N - 1 - 1) hbase
    (fun j a h1 h2 h3 => buildStep_ok (m := N) (by omega) hN (by omega) hW h3)
  rw [show 1 + (N - 1 - 1) = N - 1 by omega] at v2
  obtain ⟨Ml, h1l, h2l⟩ := hW (N - 1) (by omega)
  have hMl : Rep Ml [cl (N - 1), star] (dB R dn) fun env => matN W (N - 1) (env (cl (N - 1))) (env star) := by
    refine ⟨by simp [h2l, dB_cl, dB_star], fun env _ => ?_⟩
    simp [matN, h1l, mat]
  have hnot : star ∉ (List.range N).map cl := by
    rw [mem_cls]
    rintro ⟨j, _, e⟩
    exact cl_ne_star j e.symm
  obtain ⟨T, t1, t2, t3⟩ := einsum_two (sc := (List.range N).map cl) v2 hMl star (by simp) hnot
    (by
      intro l hl hn
      simp only [List.mem_append, mem_cls, List.mem_singleton] at hl hn
      rcases hl with ⟨j, hj, rfl⟩ | rfl
      · exact absurd ⟨j, by omega, rfl⟩ hn
      · rfl)
    (by
      intro l hl hn
      simp only [mem_cls, List.mem_cons, List.not_mem_nil, or_false] at hl hn
      rcases hl with rfl | rfl
      · exact absurd ⟨N - 1, by omega, rfl⟩ hn
      · rfl)
  refine ⟨T, ?_, t2, t3.congr fun env _ => ?_⟩
  · unfold buildV
    have e0 : rd W 0 = .ok M0 := by simp [rd, h10]
    have e1 : rd W ((N : ℤ) - 1) = .ok Ml := by
      have : ((N : ℤ) - 1) = ((N - 1 : ℕ) : ℤ) := by omega
      rw [this]; simp [rd, h1l]
    simp only [e0, bind, Except.bind, v1, mapM_chr hN, chr_ok (show N - 1 < 19 by omega), e1]
    have := rows_ok (m := N) hW
    simp only [bind, Except.bind] at this
    rw [this]
    have hset : ((List.range N).map cl).set (N - 1) star = (List.range (N - 1)).map cl ++ [star] := by
      obtain ⟨n, rfl⟩ : ∃ n, N = n + 1 := ⟨N - 1, by omega⟩
      simp [List.range_succ]
    simp only [hset]
    rw [map_dB] at t1
    exact t1
  · rw [dB_star]
    refine sum_congr rfl fun r _ => ?_
    have e2 : ∀ j, Function.update env star r (cl j) = env (cl j) := fun j =>
      Function.update_of_ne (cl_ne_star j) _ _
    unfold krProd
    simp only [e2, Function.update_self]
    conv_rhs => rw [show N = N - 1 + 1 by omega, List.range_succ, List.map_append, List.prod_append]
    simp

theorem mapM_chr_ub : ∀ l : List ℕ, (∃ j ∈ l, 19 ≤ j) → l.mapM chr = .error .ub := by
  intro l
  induction l with
  | nil => simp
  | cons a l ih =>
    rintro ⟨j, hj, h19⟩
    rw [List.mapM_cons]
    rcases Nat.lt_or_ge a 19 with ha | ha
    · rcases List.mem_cons.1 hj with rfl | hj
      · omega
      · rw [chr_ok ha, ih ⟨j, hj, h19⟩]; rfl
    · rw [chr_ub ha]; rfl

theorem buildStep_ub {i : ℕ} (V : Tensor K) (hi : 19 ≤ i)
    (hW : ∀ j < i + 1, ∃ M, W[j]? = some M ∧ M.lens = [dn j, R]) : buildStep W V i = .error .ub := by
  obtain ⟨M0, h10, h20⟩ := hW 0 (by omega)
  have e0 : rd W 0 = .ok M0 := by simp [rd, h10]
  unfold buildStep
  rw [rows_ok hW]
  simp only [bind, Except.bind, e0]
  rw [mapM_chr_ub _ ⟨i, by simp, hi⟩]

/-- From order 20 on the label table is exceeded. -/
theorem buildV_ub {N : ℕ} (hN : 20 ≤ N)
    (hW : ∀ j < N, ∃ M, W[j]? = some M ∧ M.lens = [dn j, R]) : buildV W N = .error .ub := by
  obtain ⟨M0, h10, h20⟩ := hW 0 (by omega)
  have e0 : rd W 0 = .ok M0 := by simp [rd, h10]
  have hbase : Rep M0 ((List.range 1).map cl ++ [star]) (dB R dn) (krProd W 1) := by
    refine ⟨by simp [List.range_succ, h20, dB_cl, dB_star], fun env _ => ?_⟩
    simp [List.range_succ, krProd, matN, h10, mat]
  obtain ⟨V, v1, v2⟩ := foldlM_range'_inv
    (P := fun i V => Rep V ((List.range i).map cl ++ [star]) (dB R dn) (krProd W i))
    (f := buildStep W) (s := 1) (n := 18) hbase
    (fun j a h1 h2 h3 => buildStep_ok (m := 19) (by omega) (by omega) (by omega) (fun j hj => hW j (by omega)) h3)
  have hsplit : List.range' 1 (N - 1 - 1) = List.range' 1 18 ++ List.range' 19 (N - 20) := by
    rw [show N - 1 - 1 = 18 + (N - 20) by omega, ← List.range'_append_1]
  unfold buildV
  simp only [e0, bind, Except.bind]
  rw [hsplit, List.foldlM_append, v1]
  simp only [bind, Except.bind]
  rcases Nat.eq_zero_or_pos (N - 20) with h0 | h0
  · rw [h0]
    simp only [List.range'_zero, List.foldlM_nil, pure, Except.pure]
    have hr := rows_ok (m := N) hW
    simp only [bind, Except.bind, pure, Except.pure] at hr
    rw [hr]
    simp only
    rw [mapM_chr_ub _ ⟨19, by simp; omega, le_refl _⟩]
  · rw [show N - 20 = (N - 21) + 1 by omega, List.range'_succ, List.foldlM_cons,
      buildStep_ub V (le_refl _) (fun j hj => hW j (by omega))]
    rfl

end buildV

section buildVec

variable [CommSemiring K] {W : List (Tensor K)} {dn : ℕ → ℕ}

/-- Vector number `j` of an array. -/
def vecN (W : List (Tensor K)) (j x : ℕ) : K :=
  match W[j]? with
  | some v => v.val [x]
  | none => 0

theorem vrows_ok {m : ℕ} (hW : ∀ j < m, ∃ M, W[j]? = some M ∧ M.lens = [dn j]) :
    ((List.range m).mapM fun (j : ℕ) => do pure (vlen (← rd W j))) = Except.ok (ε := Fault) ((List.range m).map dn) := by
  refine mapM_ok fun j hj => ?_
  obtain ⟨M, h1, h2⟩ := hW j (List.mem_range.1 hj)
  have : rd W (j : ℤ) = .ok M := by simp [rd, h1]
  rw [this]
  simp [bind, Except.bind, pure, Except.pure, vlen, h2]

/-- Outer product of the first `i` vectors. -/
def outProd (W : List (Tensor K)) (i : ℕ) (env : Label → ℕ) : K :=
  ((List.range i).map fun j => vecN W j (env (cl j))).prod

theorem vec_mul {i : ℕ} (hW : ∃ M, W[i]? = some M ∧ M.lens = [dn i]) {V : Tensor K}
    (hV : Rep V ((List.range i).map cl) (dB 0 dn) (outProd W i)) :
    ∃ M V', rd W (i : ℤ) = .ok M ∧
      einsum ((List.range (i + 1)).map dn) ((List.range (i + 1)).map cl) [(V, (List.range i).map cl), (M, [cl i])] = .ok V' ∧
      Canon V' ∧ Rep V' ((List.range (i + 1)).map cl) (dB 0 dn) (outProd W (i + 1)) := by
  obtain ⟨M, h1, h2⟩ := hW
  have hM : Rep M [cl i] (dB 0 dn) fun env => vecN W i (env (cl i)) := by
    refine ⟨by simp [h2, dB_cl], fun env _ => ?_⟩
    simp [vecN, h1]
  obtain ⟨T, t1, t2, t3⟩ := einsum_two_nosum (sc := (List.range (i + 1)).map cl) hV hM
    (by
      intro l hl
      rw [mem_cls] at hl ⊢
      obtain ⟨j, hj, rfl⟩ := hl
      exact ⟨j, by omega, rfl⟩)
    (by
      intro l hl
      simp only [List.mem_singleton] at hl
      rw [mem_cls]
      exact ⟨i, by omega, hl⟩)
  refine ⟨M, T, by simp [rd, h1], by rwa [map_dB] at t1, t2, t3.congr fun env _ => ?_⟩
  unfold outProd
  rw [List.range_succ, List.map_append, List.prod_append]
  simp

theorem buildVVec_ok {N : ℕ} (h2 : 2 ≤ N) (hN : N ≤ 19)
    (hW : ∀ j < N, ∃ M, W[j]? = some M ∧ M.lens = [dn j]) :
    ∃ V, buildVVec W N = .ok V ∧ Canon V ∧ Rep V ((List.range N).map cl) (dB 0 dn) (outProd W N) := by
  obtain ⟨M0, h10, h20⟩ := hW 0 (by omega)
  have hbase : Rep M0 ((List.range 1).map cl) (dB 0 dn) (outProd W 1) := by
    refine ⟨by simp [List.range_succ, h20, dB_cl], fun env _ => ?_⟩
    simp [List.range_succ, outProd, vecN, h10]
  obtain ⟨V, v1, v2⟩ := foldlM_range'_inv
    (P := fun i V => Rep V ((List.range i).map cl) (dB 0 dn) (outProd W i))
    (f := buildVecStep W) (s := 1) (n := N - 1 - 1) hbase
    (fun i a h1 h2 h3 => by
      obtain ⟨M, V', a1, a2, a3, a4⟩ := vec_mul (hW i (by omega)) h3
      refine ⟨V', ?_, a4⟩
      unfold buildVecStep
      rw [vrows_ok (m := i + 1) (fun j hj => hW j (by omega)), mapM_chr (by omega), mapM_chr (by omega),
        chr_ok (by omega)]
      simp only [bind, Except.bind, a1]
      exact a2)
  rw [show 1 + (N - 1 - 1) = N - 1 by omega] at v2
  obtain ⟨M, T, a1, a2, a3, a4⟩ := vec_mul (hW (N - 1) (by omega)) v2
  rw [show N - 1 + 1 = N by omega] at a2 a4
  refine ⟨T, ?_, a3, a4⟩
  unfold buildVVec
  have e0 : rd W 0 = .ok M0 := by simp [rd, h10]
  have e1 : rd W ((N : ℤ) - 1) = .ok M := by
    have : ((N : ℤ) - 1) = ((N - 1 : ℕ) : ℤ) := by omega
    rw [this]; exact a1
  simp only [e0, bind, Except.bind, v1, mapM_chr hN, chr_ok (show N - 1 < 19 by omega), e1]
  have := vrows_ok (m := N) hW
  simp only [bind, Except.bind] at this
  rw [this]
  simp only
  -- CTF reads only the first `N - 1` characters of `seq`
  have hVl : V.lens.length = N - 1 := by rw [v2.1]; simp
  have htk : ((List.range N).map cl).take (N - 1) = (List.range (N - 1)).map cl := by
    rw [← List.map_take, List.take_range]; congr 2; omega
  have key : einsum ((List.range N).map dn) ((List.range N).map cl) [(V, (List.range N).map cl), (M, [cl (N - 1)])] =
      einsum ((List.range N).map dn) ((List.range N).map cl) [(V, (List.range (N - 1)).map cl), (M, [cl (N - 1)])] := by
    unfold einsum
    simp only [List.map_cons, List.map_nil, hVl, htk]
    have h1 : (List.map cl (List.range (N - 1))).take (N - 1) = (List.range (N - 1)).map cl := by
      rw [List.take_of_length_le (by simp)]
    simp only [h1]
    congr 1
    simp [hVl]
  rw [key]
  exact a2

end buildVec

section norms

theorem mem_boxList {lens idx : List ℕ} : idx ∈ boxList lens ↔ fits lens idx = true := by
  induction lens generalizing idx with
  | nil => cases idx <;> simp [boxList, fits]
  | cons n ns ih =>
    cases idx with
    | nil => simp [boxList, fits]
    | cons x xs => simp [boxList, fits, ih]

theorem boxList_nodup (lens : List ℕ) : (boxList lens).Nodup := by
  induction lens with
  | nil => simp [boxList]
  | cons n ns ih =>
    rw [boxList, List.nodup_flatMap]
    refine ⟨fun x _ => ih.map (fun a b h => (List.cons.inj h).2), ?_⟩
    refine List.Pairwise.imp ?_ List.nodup_range
    intro a b hab l h1 h2
    simp only [List.mem_map] at h1 h2
    obtain ⟨_, _, rfl⟩ := h1
    obtain ⟨_, _, e⟩ := h2
    exact hab (List.cons.inj e).1.symm

theorem fits_ofFn {dims idx : Fin N → ℕ} : fits (List.ofFn dims) (List.ofFn idx) = true ↔ ∀ j, idx j < dims j := by
  rw [fits_iff_getElem]
  simp only [List.length_ofFn, List.getElem_ofFn, true_and]
  constructor
  · intro h j; exact h j.1 j.2 j.2
  · intro h k hk _; exact h ⟨k, hk⟩

/-- Sums over the multi-indices of a tensor are sums over the box of its shape. -/
theorem boxList_sum [AddCommMonoid K] (dims : Fin N → ℕ) (f : List ℕ → K) :
    ((boxList (List.ofFn dims)).map f).sum = ∑ idx ∈ Spec.Box dims, f (List.ofFn idx) := by
  rw [← List.sum_toFinset f (boxList_nodup _)]
  symm
  refine Finset.sum_bij (fun idx _ => List.ofFn idx) ?_ ?_ ?_ ?_
  · intro idx h
    rw [List.mem_toFinset, mem_boxList, fits_ofFn]
    exact Spec.mem_Box.1 h
  · intro a _ b _ h
    exact List.ofFn_injective h
  · intro l hl
    rw [List.mem_toFinset, mem_boxList] at hl
    have hlen := fits_length hl
    rw [List.length_ofFn] at hlen
    refine ⟨fun j => l[j.1]'(by omega), ?_, ?_⟩
    · rw [Spec.mem_Box, ← fits_ofFn]
      convert hl
      apply List.ext_getElem <;> simp [hlen]
    · apply List.ext_getElem <;> simp [hlen]
  · intro _ _; rfl

theorem sqNorm_eq [CommSemiring K] {T : Tensor K} {dims : Fin N → ℕ} (h : T.lens = List.ofFn dims) :
    sqNorm T = ∑ idx ∈ Spec.Box dims, arr T N idx ^ 2 := by
  unfold sqNorm
  rw [h, boxList_sum]
  rfl

theorem sqNorm_mat [CommSemiring K] {T : Tensor K} {n R : ℕ} (h : T.lens = [n, R]) :
    sqNorm T = ∑ x ∈ range n, ∑ r ∈ range R, mat T x r ^ 2 := by
  unfold sqNorm
  rw [h]
  have hr : ∀ (m : ℕ) (f : ℕ → K), ((List.range m).map f).sum = ∑ x ∈ range m, f x := by
    intro m f
    rw [← List.sum_toFinset f List.nodup_range, List.toFinset_range]
  have hf : ∀ (l : List ℕ) (f : ℕ → List K), (l.flatMap f).sum = (l.map fun x => (f x).sum).sum := by
    intro l f
    induction l with
    | nil => simp
    | cons a l ih => simp [List.flatMap_cons, ih]
  simp only [boxList, List.map_flatMap, List.map_cons, List.map_nil, List.map_map]
  rw [hf, hr]
  refine sum_congr rfl fun x _ => ?_
  simp only [hf, List.flatMap_cons, Function.comp_def, List.map_flatMap, List.map_cons, List.map_nil, List.sum_singleton]
  rw [hr]
  rfl

end norms

end Model
