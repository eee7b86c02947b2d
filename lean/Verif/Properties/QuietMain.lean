import Verif.Properties.MainNeg
import Verif.Properties.QuietTuck

/-! # C91 for the whole program: `-pp_res_tol 0` makes `-pp 1` and `-pp 2` the same as `-pp 0` -/

namespace Properties

open Model

variable {N : ℕ} {dims : Fin N → ℕ} {o : Opts} {E : MainEnv}

/-- The zero matrices `F` of `main`, as the PP drivers make them. -/
theorem fillMats_zeros (lens : List ℕ) (R : ℕ) (f : ℕ → ℕ → ℕ → ℝ) :
    (fillMats lens R f).map zerosLike = fillMats lens R fun _ _ _ => 0 := by
  unfold fillMats
  rw [List.map_map]
  refine List.map_congr_left fun i _ => ?_
  simp only [Function.comp_apply, zerosLike, fillM, fillT, ite_self]

theorem testProgram_of {atof : CStr → F64} {argv : List CStr} (ho : testOpts atof argv = .ok o) {fuel : ℕ} {x : Tensor ℝ × MainOut}
    (h : testMain E fuel o = .ok x) : testProgram E atof fuel argv = .ok x := by
  unfold testProgram
  rw [ho]
  exact h

/-- **C91 (`test_ALS -model CP`, the whole program).** Orders 4, 6..9.  Two command lines that differ in `-pp` only, one with `-pp 0`, the other with
`-pp 1` or `-pp 2` and a restart tolerance `-pp_res_tol` of 0 (or less): on the same input tensor, start and pseudoinverse, within the time limit and
with a tolerance below 10, `main` runs `alsCP_DT` for the first and `alsCP_PP` (`alsCP_PP_partupdate`) for the second, and both make the same number of
iterations, end with the same factors and gradients and the same return value; the second one makes no PP sweep. -/
theorem C91_test {atof : CStr → F64} {argv argv' : List CStr} (ho : testOpts atof argv = .ok o)
    (ho' : testOpts atof argv' = .ok { o with pp := 0 }) (hpp : o.pp ≠ 0) (hp0 : o.ppResTol.toReal ≤ 0) (hf : o.Finite) (hr : o.resprint ≠ 0)
    (hin : InputOk E o) (hd : MainDims o dims) (h4 : 4 ≤ N) (h5 : N ≠ 5) (h9 : N ≤ 9) (hC : o.model.head? = some 'C')
    (hk : KernOk E.kern) (hs : E.solve = svdSolver E.kern) (hclk : ∀ t, E.clock t ≤ o.timelimit.toReal)
    (ht : ∀ V, mainTensor E o = .ok V → o.tol.toReal * norm2 V < 10) {fuel : ℕ} (hfu : o.maxiter + 3 < fuel) :
    ∃ V e, testProgram E atof fuel argv' = .ok (V, .cpDT e) ∧ (0 : ℤ) ≤ e.iter ∧
      ((o.pp = 1 ∧ ∃ r, testProgram E atof fuel argv = .ok (V, .cpPP r e.ret) ∧ r.iter = e.iter ∧ r.st.W = e.st.W ∧ r.st.G = e.st.G ∧
          ppSweeps r.trace = 0) ∨
        (o.pp = 2 ∧ ∃ r, testProgram E atof fuel argv = .ok (V, .cpPart r e.ret) ∧ r.iter = e.iter ∧ r.st.cp.W = e.st.W ∧ r.st.cp.G = e.st.G ∧
          ppSweeps r.trace = 0)) := by
  obtain ⟨t1, -, t3, -⟩ := C44_test_values ho
  have hpp' : 0 ≤ o.pp ∧ o.pp ≤ 2 := optValid (v := fun x => 0 ≤ x ∧ x ≤ 2) t1 (by norm_num)
  have hmi : 0 ≤ o.maxiter := optValid t3 (by norm_num)
  obtain ⟨V, v1, v2⟩ := C57_tensor hin
  have hV := input_lens v2 hd hin
  have hC' : o.model[0]? = some 'C' := by rw [← List.head?_eq_getElem?]; exact hC
  have hW := fillMats_shaped hV o.R.toNat E.w0
  have hG := fillMats_shaped hV o.R.toNat E.g0
  have v1' : mainTensor E { o with pp := 0 } = .ok V := v1
  have hz := fillMats_zeros (List.ofFn dims) o.R.toNat E.w0
  have hDT : ∀ e, alsCPDT N o.R.toNat o.lambda.toReal (svdSolver E.kern) V ((fillMats (List.ofFn dims) o.R.toNat E.w0).map zerosLike)
      ⟨o.tol.toReal * norm2 V, o.timelimit.toReal, o.maxiter, o.resprint⟩ E.clock fuel
      ⟨fillMats (List.ofFn dims) o.R.toNat E.w0, fillMats (List.ofFn dims) o.R.toNat E.g0⟩ = .ok e →
      testProgram E atof fuel argv' = .ok (V, .cpDT e) := by
    intro e he
    refine testProgram_of ho' <| testMain_of v1' ?_
    rw [mainDrive_fin (o := { o with pp := 0 }) hf.tol hf.timelimit]
    unfold mainDriveR
    simp only [hV, List.length_ofFn, if_pos hC', if_true, bind, Except.bind, hs, ← hz]
    rw [he]
    rfl
  have h012 : o.pp = 1 ∨ o.pp = 2 := by omega
  rcases h012 with h | h
  · obtain ⟨r, e, r1, r2, r3, r4, r5, r6, -⟩ := C91_off h4 h5 h9 E.same o.lambda.toReal o.magni.toReal hp0 hk hW hG.count
      ⟨false, o.tol.toReal * norm2 V, o.timelimit.toReal, o.maxiter, o.resprint, false⟩ rfl hmi (ht V v1) hr hclk hclk
      (fuel := fuel) (fuel' := fuel) (by simp only; omega) (by simp only; omega)
    refine ⟨V, e, hDT e r2, by omega, .inl ⟨h, r, testProgram_of ho <| testMain_of v1 ?_, r3, r4, r5, r6⟩⟩
    rw [mainDrive_fin hf.tol hf.timelimit]
    unfold mainDriveR
    simp only [hV, List.length_ofFn, if_pos hC', h, if_true, bind, Except.bind]
    rw [if_neg (by norm_num)]
    rw [r1]
    rfl
  · obtain ⟨r, e, r1, r2, r3, r4, r5, r6, -⟩ := C91_part_off h4 h5 h9 E.same o.lambda.toReal o.magni.toReal hp0 o.updatePct.toReal hk E.srt hW
      hG.count ⟨false, o.tol.toReal * norm2 V, o.timelimit.toReal, o.maxiter, o.resprint, false⟩ rfl hmi (ht V v1) hr hclk hclk
      (fuel := fuel) (fuel' := fuel) (by simp only; omega) (by simp only; omega)
    refine ⟨V, e, hDT e r2, by omega, .inr ⟨h, r, testProgram_of ho <| testMain_of v1 ?_, r3, r4, r5, r6⟩⟩
    rw [mainDrive_fin hf.tol hf.timelimit]
    unfold mainDriveR
    simp only [hV, List.length_ofFn, if_pos hC', h]
    rw [if_neg (by norm_num), if_neg (by norm_num), if_pos trivial, r1]
    rfl

/-- **C91 (`test_ALS -model Tucker`, the whole program).** Orders 4, 6..9, the factors of the HOSVD as start.  Let `P 0` be the leading
eigenspaces of the unfoldings and `P 1, P 2, …` the HOOI iterates as subspaces (leading eigenvalues larger than the others).  Two command lines that differ in `-pp` only, `-pp 0` and `-pp 1` with a restart tolerance of 0 (or less): within the time limit and with
a tolerance below 10 both runs make the same number of iterations, return the same value and end with bases of the same subspaces, hence with the same
reconstruction and error. -/
theorem C91_tucker_test {atof : CStr → F64} {argv argv' : List CStr} (ho : testOpts atof argv = .ok o)
    (ho' : testOpts atof argv' = .ok { o with pp := 0 }) (hpp : o.pp = 1) (hp0 : o.ppResTol.toReal ≤ 0) (hf : o.Finite)
    (hr : o.resprint ≠ 0) (hin : InputOk E o) (hd : MainDims o dims) (h4 : 4 ≤ N) (h5 : N ≠ 5) (h9 : N ≤ 9)
    (hT : o.model.head? = some 'T') (hk : SvdShape E.kern) (hl : SvdLeading E.kern) (hclk : ∀ t, E.clock t ≤ o.timelimit.toReal)
    (ht : ∀ V, mainTensor E o = .ok V → o.tol.toReal * norm2 V < 10)
    {rk : Fin N → ℕ} (hrk : MainRanks o rk) (hle : ∀ j, rk j ≤ dims j) {P : ℕ → Fin N → ℕ → ℕ → ℝ}
    (h0 : ∀ V, mainTensor E o = .ok V → ∀ i, Spec.LeadingProj (dims i) (rk i) (Spec.unfoldGram dims (arr V N) i) (P 0 i))
    (hP : ∀ V, mainTensor E o = .ok V → ∀ n ≤ o.maxiter.toNat, Spec.SpanSweep dims rk (arr V N) (P n) (P (n + 1)))
    {fuel : ℕ} (hfu : o.maxiter + 3 < fuel) :
    ∃ V r e, testProgram E atof fuel argv' = .ok (V, .tuckDT e) ∧ testProgram E atof fuel argv = .ok (V, .tuckPP r e.ret) ∧ r.iter = e.iter ∧
      SpanResult dims rk V r.st.W (P e.iter) ∧ SpanResult dims rk V e.st.W (P e.iter) ∧ norm2 r.st.core = norm2 e.st.core ∧
      ppSweeps r.trace = 0 := by
  obtain ⟨-, -, t3, -⟩ := C44_test_values ho
  have hmi : 0 ≤ o.maxiter := optValid t3 (by norm_num)
  obtain ⟨V, v1, v2⟩ := C57_tensor hin
  have hV := input_lens v2 hd hin
  have v1' : mainTensor E { o with pp := 0 } = .ok V := v1
  have hT' : o.model[0]? = some 'T' := by rw [← List.head?_eq_getElem?]; exact hT
  have hTC : ¬ o.model[0]? = some 'C' := by rw [hT']; simp
  obtain ⟨C0, F0, f1, f2, f3, -⟩ := hosvd_start (by omega) (by omega) hV hle hk hl
  obtain ⟨C1, F1, g1, g2, -⟩ := C76_hosvd (by omega) (by omega) hV hle hk hl (h0 V v1)
  rw [f1] at g1
  obtain ⟨rfl, rfl⟩ := Prod.mk.inj (Except.ok.inj g1)
  obtain ⟨r, e, r1, r2, r3, r4, r5, r6, r7, -⟩ := C91_tucker_off h4 h5 h9 hle f2 f3.1 hk hl hk hl g2.spans hp0
    ⟨false, o.tol.toReal * norm2 V, o.timelimit.toReal, o.maxiter, o.resprint, false⟩ rfl hmi (hP V v1) (ht V v1) hr hclk hclk
    (fuel := fuel) (fuel' := fuel) (by simp only; omega) (by simp only; omega)
  have hrk' : mainRanks { o with pp := 0 } N = List.ofFn rk := mainRanks_eq.1 hrk
  refine ⟨V, r, e, testProgram_of ho' <| testMain_of v1' ?_, testProgram_of ho <| testMain_of v1 ?_, r3, r4, r5, r6, r7⟩
  · rw [mainDrive_fin (o := { o with pp := 0 }) hf.tol hf.timelimit]
    unfold mainDriveR
    simp only [hV, List.length_ofFn, if_neg hTC, if_pos hT', if_true, bind, Except.bind]
    rw [hrk', f1]
    simp only
    rw [r2]
    rfl
  · rw [mainDrive_fin hf.tol hf.timelimit]
    unfold mainDriveR
    simp only [hV, List.length_ofFn, if_neg hTC, if_pos hT', hpp, bind, Except.bind]
    rw [mainRanks_eq.1 hrk, f1]
    simp only
    rw [if_neg (by norm_num), if_pos trivial, r1]
    rfl

/-! ### the hypotheses are met: `test_ALS -tensor r2 -dim 4 -size 2 -rank 1 -tol 0 -pp_res_tol 0 -pp p` -/

/-- The options, in the order of the parser. -/
noncomputable def exQuietOpts (m : CStr) (pp : ℤ) : Opts where
  model := m
  tensor := "r2".toList
  pp := pp
  updatePct := .fin 1
  dim := 4
  maxiter := 5000
  timelimit := .fin 5000
  size := 2
  R := 1
  updateRank := 0
  issparse := 0
  resprint := 10
  randomsvd := 0
  tol := .fin 0
  ppResTol := .fin 0
  lambda := .fin 0
  magni := .fin 1
  filename := "out.csv".toList
  tensorfile := "test".toList
  colMin := .fin 0.5
  colMax := .fin 0.9
  ratioNoise := .fin 0.01

def exQuietArgs (m : CStr) (p : Char) : List CStr :=
  ["test_ALS".toList, "-model".toList, m, "-tensor".toList, "r2".toList, "-dim".toList, "4".toList, "-size".toList, "2".toList,
    "-rank".toList, "1".toList, "-tol".toList, "0".toList, "-pp_res_tol".toList, "0".toList, "-pp".toList, [p]]

open Classical in
theorem exQuietOpts_ok {m : CStr} (hm : m = "CP".toList ∨ m = "Tucker".toList) (p : Char) (hp : p = '0' ∨ p = '1' ∨ p = '2') :
    testOpts (fun _ => .fin 0) (exQuietArgs m p) = .ok (exQuietOpts m ((p.toNat : ℤ) - 48)) := by
  have hn : ¬ notUnit (.fin 0) := by simp [notUnit, F64.lt]
  have e : testOpts (fun _ => .fin 0) (exQuietArgs m p) = .ok { exQuietOpts m ((p.toNat : ℤ) - 48) with
      tol := if notUnit (.fin 0) then .fin 1e-10 else .fin 0, ppResTol := if notUnit (.fin 0) then .fin 1e-2 else .fin 0 } := by
    rcases hm with h | h <;> subst h <;> rcases hp with h | h | h <;> subst h <;> rfl
  rw [e, if_neg hn, if_neg hn]
  rfl

/-- `exEnv` with the corner tensor of C76 as random tensor. -/
noncomputable def exQuietEnv (k : Kern ℝ) (srt : List Rel → List ℕ) : MainEnv :=
  { exEnv k srt with tenRnd := exCornV.val, solve := svdSolver k }

theorem exQuiet_tensor (k : Kern ℝ) (srt : List Rel → List ℕ) (m : CStr) (pp : ℤ) :
    mainTensor (exQuietEnv k srt) (exQuietOpts m pp) = .ok exCornV := by
  have h : fillT [2, 2, 2, 2] exCornV.val = exCornV := by
    unfold fillT exCornV
    congr 1
    funext i
    by_cases hi : fits [2, 2, 2, 2] i = true
    · rw [if_pos hi]
    · rw [if_neg hi, if_neg (by rintro rfl; exact hi (by decide)), if_neg (by rintro rfl; exact hi (by decide))]
  change (pure (fillT [2, 2, 2, 2] exCornV.val) : Except Fault (Tensor ℝ)) = _
  rw [h]
  rfl

theorem exQuiet_finite (m : CStr) (pp : ℤ) : (exQuietOpts m pp).Finite :=
  ⟨⟨⟨_, rfl⟩, ⟨_, rfl⟩, ⟨_, rfl⟩, ⟨_, rfl⟩, ⟨_, rfl⟩, ⟨_, rfl⟩, ⟨_, rfl⟩⟩, ⟨_, rfl⟩, ⟨_, rfl⟩⟩

example (p : Char) (hp : p = '1' ∨ p = '2') : ∃ E V e, testProgram E (fun _ => .fin 0) 6000 (exQuietArgs "CP".toList '0') = .ok (V, .cpDT e) ∧
    ((p = '1' ∧ ∃ r, testProgram E (fun _ => .fin 0) 6000 (exQuietArgs "CP".toList p) = .ok (V, .cpPP r e.ret) ∧ r.st.W = e.st.W) ∨
      (p = '2' ∧ ∃ r, testProgram E (fun _ => .fin 0) 6000 (exQuietArgs "CP".toList p) = .ok (V, .cpPart r e.ret) ∧ r.st.cp.W = e.st.W)) := by
  obtain ⟨k, hk⟩ := exists_kernOk
  obtain ⟨V, e, a, -, b⟩ := C91_test (E := exQuietEnv k fun _ => []) (N := 4) (dims := fun _ => 2)
    (exQuietOpts_ok (.inl rfl) p (.inr hp)) (exQuietOpts_ok (.inl rfl) '0' (.inl rfl)) (by rcases hp with h | h <;> subst h <;> decide) le_rfl
    (exQuiet_finite _ _) (by simp [exQuietOpts]) trivial rfl (by norm_num) (by norm_num) (by norm_num) rfl hk rfl
    (fun _ => by norm_num [exQuietEnv, exEnv, exQuietOpts, F64.toReal]) (fun V _ => by norm_num [exQuietOpts, F64.toReal]) (fuel := 6000)
    (by norm_num [exQuietOpts])
  refine ⟨_, V, e, a, b.imp ?_ ?_⟩
  · rintro ⟨h, r, r1, -, r2, -⟩
    exact ⟨by rcases hp with h' | h' <;> subst h' <;> revert h <;> decide, r, r1, r2⟩
  · rintro ⟨h, r, r1, -, r2, -⟩
    exact ⟨by rcases hp with h' | h' <;> subst h' <;> revert h <;> decide, r, r1, r2⟩

example : ∃ E V r e, testProgram E (fun _ => .fin 0) 6000 (exQuietArgs "Tucker".toList '0') = .ok (V, .tuckDT e) ∧
    testProgram E (fun _ => .fin 0) 6000 (exQuietArgs "Tucker".toList '1') = .ok (V, .tuckPP r e.ret) ∧ r.iter = e.iter ∧
    SpanResult (N := 4) (fun _ => 2) (fun _ => 1) V e.st.W exCornP := by
  obtain ⟨k, hl, hk⟩ := exists_svdLeading
  have key : ∀ V, mainTensor (exQuietEnv k fun _ => []) (exQuietOpts "Tucker".toList (('1'.toNat : ℤ) - 48)) = .ok V → V = exCornV := by
    intro V hV
    rw [exQuiet_tensor] at hV
    exact (Except.ok.inj hV).symm
  obtain ⟨V, r, e, a, b, c, -, d, -⟩ := C91_tucker_test (E := exQuietEnv k fun _ => []) (N := 4) (dims := fun _ => 2) (rk := fun _ => 1)
    (exQuietOpts_ok (.inr rfl) '1' (.inr (.inl rfl))) (exQuietOpts_ok (.inr rfl) '0' (.inl rfl)) rfl le_rfl
    (exQuiet_finite _ _) (by simp [exQuietOpts]) trivial rfl (by norm_num) (by norm_num) (by norm_num) rfl hk hl
    (fun _ => by norm_num [exQuietEnv, exEnv, exQuietOpts, F64.toReal]) (fun V _ => by norm_num [exQuietOpts, F64.toReal])
    (fun _ => rfl) (fun _ => by norm_num) (P := fun _ => exCornP)
    (fun V hV i => by rw [key V hV]; exact lead2 (by norm_num) (exCornUnfold i) fun _ _ _ _ => rfl)
    (fun V hV _ _ => by rw [key V hV]; exact exCornSweep) (fuel := 6000) (by norm_num [exQuietOpts])
  exact ⟨_, V, r, e, a, b, c, d⟩

end Properties
