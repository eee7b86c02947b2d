import Verif.Proofs.Symmetry
import Verif.Properties.Fixed

/-! # C73: ALS commutes with changes of coordinates -/

namespace Properties

open Model Finset

variable {N : ℕ}

section Hist

variable {σ τ : Type} {a : AlsArgs} {inc : ℚ} {clock : ℕ → ℝ} {c : ℕ → ℝ × ℝ}

/-- Two executions of `als` that see the same gradient norms, residuals and times make the same decisions. -/
theorem hist_unique {tr : ℕ → σ} {tr' : ℕ → τ} {r : AlsEnd σ} {r' : AlsEnd τ} (H : AlsHist a inc clock tr c r)
    (H' : AlsHist a inc clock tr' c r') :
    r.iters = r'.iters ∧ r.sweeps = r'.sweeps ∧ r.broke = r'.broke ∧ r.ret = r'.ret ∧ r.rows = r'.rows := by
  have hb : r.iters = r'.iters ∧ r.broke = r'.broke := by
    rcases hbr : r.broke with _ | _ <;> rcases hbr' : r'.broke with _ | _
    · exact ⟨(H.atEnd hbr).trans (H'.atEnd hbr').symm, rfl⟩
    · obtain ⟨h1, h2⟩ := H'.atBreak hbr'
      have := H.atEnd hbr
      exact absurd h2 (H.before _ (by omega))
    · obtain ⟨h1, h2⟩ := H.atBreak hbr
      have := H'.atEnd hbr'
      exact absurd h2 (H'.before _ (by omega))
    · obtain ⟨_, h1⟩ := H.atBreak hbr
      obtain ⟨_, h2⟩ := H'.atBreak hbr'
      refine ⟨?_, rfl⟩
      rcases lt_trichotomy r.iters r'.iters with h | h | h
      · exact absurd h1 (H'.before _ h)
      · exact h
      · exact absurd h2 (H.before _ h)
  obtain ⟨e1, e2⟩ := hb
  have e3 : r.sweeps = r'.sweeps := by rw [H.sweeps, H'.sweeps, e1]
  refine ⟨e1, e3, e2, by rw [H.ret, H'.ret, e3], by rw [H.rows, H'.rows, e1, e2]⟩

end Hist

variable {kind : OptKind} {n m : Fin N → ℕ} {R : ℕ} {V V' : Tensor ℝ} {f f' : Fac ℝ} {lam : ℝ} {solve solve' : Spec.Solver ℝ}

/-- The two traces of related problems stay related. -/
theorem traces_related {k : Spec.Coord N} (hok : k.Ok n m R) (hc : k.Compat R lam) (hsv : Spec.SolvesPosDef solve)
    (hsv' : Spec.SolvesPosDef solve') (hV : ∀ idx ∈ Spec.Box m, arr V' N idx = k.tensor n (arr V N) idx)
    {st st' : ℕ → Spec.AlsState N ℝ} {modes : ℕ → List (Fin N)} (tr : Spec.AlsTrace n R lam solve (arr V N) st modes)
    (tr' : Spec.AlsTrace m R lam solve' (arr V' N) st' modes) (h0 : Spec.FacEq m R (st' 0).W (k.fac n (st 0).W))
    (hg0 : ∀ j, ∀ x < m j, ∀ r < R, (st' 0).G j x r = k.c * k.e j r * ∑ y ∈ range (n j), k.Q j x y * (st 0).G j y (k.σ r))
    (good : ∀ t l i, l <+: modes t → Spec.PosDef R (Spec.normalMat n R lam (Spec.alsRun n R lam solve (arr V N) l (st t)).W i))
    (t : ℕ) : Spec.FacEq m R (st' t).W (k.fac n (st t).W) ∧
      ∀ j, ∀ x < m j, ∀ r < R, (st' t).G j x r = k.c * k.e j r * ∑ y ∈ range (n j), k.Q j x y * (st t).G j y (k.σ r) := by
  induction t with
  | zero => exact ⟨h0, hg0⟩
  | succ t ih =>
    rw [tr.step, tr'.step]
    exact hok.run hc hsv hsv' hV (modes t) (st t) (st' t) ih.1 ih.2 (good t)

/-- **C73.** Plain, DT and MSDT optimizers, `lam > 0`, solvers that are exact for positive definite systems (not necessarily the
same one twice).  Two problems that differ by a change of coordinates: the tensor and the starting factors of the second are those of
the first multiplied in every mode by a matrix with orthonormal columns, the columns of all factors are reordered in the same way,
and their signs are changed consistently.  Then after any number of steps the factors and the stored gradients are still related in
this way, the two runs measure the same residuals and gradient norms, and `als` returns the same value after the same number of
steps with the same log. -/
theorem C73_equivariant (hk : kind = .simple ∨ kind = .dt ∨ kind = .msdt) (hfit : OptFits kind n) (hfit' : OptFits kind m)
    (hn : ∀ j, 0 < n j) (hR0 : 0 < R) (hS : Shaped n R V f.W) (hG : Shaped n R V f.G) (hS' : Shaped m R V' f'.W) (hG' : Shaped m R V' f'.G)
    (hl : 0 < lam) (hsv : Spec.SolvesPosDef solve) (hsv' : Spec.SolvesPosDef solve') {k : Spec.Coord N} (hok : k.Ok n m R)
    (hd : ∀ j, ∀ r < R, k.d j r ^ 2 = 1) (hV : ∀ idx ∈ Spec.Box m, arr V' N idx = k.tensor n (arr V N) idx)
    (hW0 : ∀ j, ∀ x < m j, ∀ r < R, mats f'.W j x r = k.fac n (mats f.W) j x r)
    (hG0 : ∀ j, ∀ x < m j, ∀ r < R, mats f'.G j x r = k.fac n (mats f.G) j x r) (q : ℕ) (lr : Spec.LowRank ℝ) :
    ∃ (o0 : OptState ℝ) (T T' : ℕ → OptState ℝ × Fac ℝ), optInit ℝ N kind = .ok o0 ∧
      (∀ t, iterM (optStep N R lam solve q lr V) t (o0, f) = .ok (T t)) ∧
      (∀ t, iterM (optStep N R lam solve' q lr V') t (o0, f') = .ok (T' t)) ∧
      (∀ t j, ∀ x < m j, ∀ r < R, mats (T' t).2.W j x r = k.fac n (mats (T t).2.W) j x r) ∧
      (∀ t j, ∀ x < m j, ∀ r < R, mats (T' t).2.G j x r = k.fac n (mats (T t).2.G) j x r) ∧
      (∀ t, ∃ d g, Model.residual V (T t).2.W N = .ok d ∧ Model.residual V' (T' t).2.W N = .ok d ∧
        gradnorm (T t).2.G N = .ok g ∧ gradnorm (T' t).2.G N = .ok g) ∧
      ∀ {a : AlsArgs} (clock : ℕ → ℝ) {fuel : ℕ}, a.resprint ≠ 0 → stepLimit N a.maxsweep kind < fuel →
        ∃ r r', cpdAls kind N R lam solve q lr V a clock fuel (o0, f) = .ok r ∧
          cpdAls kind N R lam solve' q lr V' a clock fuel (o0, f') = .ok r' ∧
          r'.ret = r.ret ∧ r'.iters = r.iters ∧ r'.sweeps = r.sweeps ∧ r'.rows = r.rows ∧
          ∀ j, ∀ x < m j, ∀ y < R, mats r'.st.2.W j x y = k.fac n (mats r.st.2.W) j x y := by
  obtain ⟨o0, T, h0, t1, t2, tr⟩ := opt_trace_modes hk hfit hS hG lam solve q lr
  obtain ⟨o0', T', h0', t1', t2', tr'⟩ := opt_trace_modes hk hfit' hS' hG' lam solve' q lr
  rw [h0] at h0'; cases h0'
  have hT0 : (T 0).2 = f := by rw [← Except.ok.inj (t1 0)]
  have hT0' : (T' 0).2 = f' := by rw [← Except.ok.inj (t1' 0)]
  have key := traces_related hok (.inr hd) hsv hsv' hV tr tr' (by rw [hT0, hT0']; exact hW0) (by
    rw [hT0, hT0']
    intro j x hx r hr
    rw [hok.c_mul_e hd hr]
    exact hG0 j x hx r hr) fun _ _ i _ => Spec.normalMat_posDef hl (hn i)
  have kW : ∀ t j, ∀ x < m j, ∀ r < R, mats (T' t).2.W j x r = k.fac n (mats (T t).2.W) j x r := fun t => (key t).1
  have kG : ∀ t j, ∀ x < m j, ∀ r < R, mats (T' t).2.G j x r = k.fac n (mats (T t).2.G) j x r := by
    intro t j x hx r hr
    have := (key t).2 j x hx r hr
    rw [hok.c_mul_e hd hr] at this
    exact this
  have h3 := hfit.lo
  have hR : ∀ t, Model.residual V' (T' t).2.W N = Model.residual V (T t).2.W N := by
    intro t
    rw [C16_residual (by omega) hfit.hi (t2 t).1, C16_residual (by omega) hfit.hi (t2' t).1]
    have hc2 : k.c ^ 2 = 1 := by
      rw [← hok.prod 0 hR0, ← prod_pow]
      exact prod_eq_one fun j _ => hd j 0 hR0
    have e1 : ∑ idx ∈ Spec.Box m, (arr V' N idx - Spec.recon R (mats (T' t).2.W) idx) ^ 2 =
        Spec.resid2 m R (k.tensor n (arr V N)) (k.fac n (mats (T t).2.W)) := by
      refine sum_congr rfl fun idx hidx => ?_
      rw [hV idx hidx]
      congr 2
      exact sum_congr rfl fun r hr => prod_congr rfl fun j _ => kW t j _ (Spec.mem_Box.1 hidx j) r (mem_range.1 hr)
    rw [e1, hok.resid, hc2, one_mul]
    rfl
  have hGn : ∀ t, gradnorm (T' t).2.G N = gradnorm (T t).2.G N := by
    intro t
    rw [C16_gradnorm (dims := n) (R := R) (fun j => (t2 t).2.get j), C16_gradnorm (dims := m) (R := R) (fun j => (t2' t).2.get j)]
    congr 2
    refine sum_congr rfl fun j _ => ?_
    rw [← hok.fac_norm hd j]
    exact sum_congr rfl fun x hx => sum_congr rfl fun r hr => by rw [kG t j x (mem_range.1 hx) r (mem_range.1 hr)]
  refine ⟨o0, T, T', h0, t1, t1', kW, kG, fun t => ?_, ?_⟩
  · refine ⟨_, _, C16_residual (by omega) hfit.hi (t2 t).1, ?_, C16_gradnorm (dims := n) (R := R) (fun j => (t2 t).2.get j), ?_⟩
    · rw [hR]; exact C16_residual (by omega) hfit.hi (t2 t).1
    · rw [hGn]; exact C16_gradnorm (dims := n) (R := R) (fun j => (t2 t).2.get j)
  · intro a clock fuel hres hf
    obtain ⟨o1, s, h1, hs, w, c, r, hw, hc, hr, H⟩ := cpdAls_hist hfit hS hG.count lam solve q lr hres clock 0 hf
    obtain ⟨o1', s', h1', hs', w', c', r', hw', hc', hr', H'⟩ := cpdAls_hist hfit' hS' hG'.count lam solve' q lr hres clock 0 hf
    rw [h0] at h1 h1'; cases h1; cases h1'
    cases hs; cases hs'
    have ew : ∀ t, w t = T t := fun t => Except.ok.inj ((hw t).symm.trans (t1 t))
    have ew' : ∀ t, w' t = T' t := fun t => Except.ok.inj ((hw' t).symm.trans (t1' t))
    have ec : c' = c := by
      funext t
      have a1 := (hc t).1
      have a2 := (hc t).2
      have b1 := (hc' t).1
      have b2 := (hc' t).2
      rw [ew] at a1 a2
      rw [ew'] at b1 b2
      rw [hGn, a1] at b1
      rw [hR, a2] at b2
      exact Prod.ext (Except.ok.inj b1).symm (Except.ok.inj b2).symm
    rw [ec] at H'
    obtain ⟨e1, e2, e3, e4, e5⟩ := hist_unique H H'
    refine ⟨r, r', hr, hr', e4.symm, e1.symm, e2.symm, e5.symm, ?_⟩
    rw [H.state, H'.state, ew, ew', e1]
    exact kW _

/-! ## Special cases -/

/-- No change of basis: only the order and the scaling of the columns. -/
noncomputable def colCoord (σ : Equiv.Perm ℕ) (d : Fin N → ℕ → ℝ) (c : ℝ) : Spec.Coord N :=
  ⟨fun _ x y => if x = y then 1 else 0, d, σ, c⟩

theorem colCoord_ok {σ : Equiv.Perm ℕ} {d : Fin N → ℕ → ℝ} {c : ℝ} (hσ : ∀ r, σ r < R ↔ r < R) (hc : c ≠ 0)
    (hd : ∀ r < R, ∏ j, d j r = c) : (colCoord σ d c).Ok n n R where
  orth := by
    intro j x hx y _
    simp only [colCoord]
    rw [sum_eq_single_of_mem x (mem_range.2 hx)]
    · simp
    · intro z _ hz
      rw [if_neg hz, zero_mul]
  perm := hσ
  nonzero := hc
  prod := hd

theorem colCoord_fac {σ : Equiv.Perm ℕ} {d : Fin N → ℕ → ℝ} {c : ℝ} (W : Fin N → ℕ → ℕ → ℝ) (j : Fin N) {x : ℕ} (hx : x < n j) (r : ℕ) :
    (colCoord σ d c).fac n W j x r = d j r * W j x (σ r) := by
  simp only [Spec.Coord.fac, colCoord]
  congr 1
  rw [sum_eq_single_of_mem x (mem_range.2 hx)]
  · simp
  · intro z _ hz
    rw [if_neg (Ne.symm hz), zero_mul]

theorem colCoord_tensor {σ : Equiv.Perm ℕ} {d : Fin N → ℕ → ℝ} {c : ℝ} (D : (Fin N → ℕ) → ℝ) {idx : Fin N → ℕ} (h : idx ∈ Spec.Box n) :
    (colCoord σ d c).tensor n D idx = c * D idx := by
  simp only [Spec.Coord.tensor, colCoord]
  congr 1
  rw [sum_eq_single_of_mem idx h]
  · simp
  · intro y _ hy
    obtain ⟨j, hj⟩ := Function.ne_iff.1 hy
    rw [prod_eq_zero (mem_univ j) (if_neg (Ne.symm hj)), zero_mul]

/-- **C73 (order and signs of the columns; choice of the solver).** The result of `als` depends neither on the exact solver that
is used nor, up to the same changes, on the order in which the rank-one terms are numbered and on how signs are distributed over the
factors: `σ` permutes the columns `0..R-1`, and `s j r = ±1` with product 1 over the modes. -/
theorem C73_columns (hk : kind = .simple ∨ kind = .dt ∨ kind = .msdt) (hfit : OptFits kind n)
    (hn : ∀ j, 0 < n j) (hR0 : 0 < R) (hS : Shaped n R V f.W) (hG : Shaped n R V f.G) (hS' : Shaped n R V f'.W)
    (hG' : Shaped n R V f'.G) (hl : 0 < lam) (hsv : Spec.SolvesPosDef solve) (hsv' : Spec.SolvesPosDef solve')
    (σ : Equiv.Perm ℕ) (hσ : ∀ r, σ r < R ↔ r < R) (s : Fin N → ℕ → ℝ) (hs : ∀ j r, s j r = 1 ∨ s j r = -1)
    (hs1 : ∀ r < R, ∏ j, s j r = 1) (hW0 : ∀ j, ∀ x < n j, ∀ r < R, mats f'.W j x r = s j r * mats f.W j x (σ r))
    (hG0 : ∀ j, ∀ x < n j, ∀ r < R, mats f'.G j x r = s j r * mats f.G j x (σ r)) (q : ℕ) (lr : Spec.LowRank ℝ) :
    ∃ o0 : OptState ℝ, optInit ℝ N kind = .ok o0 ∧
      ∀ {a : AlsArgs} (clock : ℕ → ℝ) {fuel : ℕ}, a.resprint ≠ 0 → stepLimit N a.maxsweep kind < fuel →
        ∃ r r', cpdAls kind N R lam solve q lr V a clock fuel (o0, f) = .ok r ∧
          cpdAls kind N R lam solve' q lr V a clock fuel (o0, f') = .ok r' ∧
          r'.ret = r.ret ∧ r'.iters = r.iters ∧ r'.sweeps = r.sweeps ∧ r'.rows = r.rows ∧
          ∀ j, ∀ x < n j, ∀ y < R, mats r'.st.2.W j x y = s j y * mats r.st.2.W j x (σ y) := by
  obtain ⟨o0, _, _, h0, _, _, _, _, _, h⟩ := C73_equivariant hk hfit hfit hn hR0 hS hG hS' hG' hl hsv hsv'
    (colCoord_ok (n := n) (σ := σ) (d := s) (c := 1) hσ one_ne_zero hs1)
    (fun j r _ => by rcases hs j r with h | h <;> simp [colCoord, h])
    (fun idx hidx => by rw [colCoord_tensor _ hidx, one_mul])
    (fun j x hx r hr => by rw [colCoord_fac _ j hx, hW0 j x hx r hr])
    (fun j x hx r hr => by rw [colCoord_fac _ j hx, hG0 j x hx r hr]) q lr
  refine ⟨o0, h0, fun {a} clock {fuel} hres hf => ?_⟩
  obtain ⟨r, r', e1, e2, e3, e4, e5, e6, e7⟩ := h (a := a) clock (fuel := fuel) hres hf
  exact ⟨r, r', e1, e2, e3, e4, e5, e6, fun j x hx y hy => by rw [e7 j x hx y hy, colCoord_fac _ j hx]⟩

/-- **C73 (change of basis, lossless compression).** `Q_j` are matrices with orthonormal columns, orthogonal or tall.  Decomposing
`V ×_1 Q_1 ... ×_N Q_N` from the factors `Q_j W_j` takes the same steps and gives the same log as decomposing `V` from the factors
`W_j`, and the factors it returns are `Q_j` times those of the second.  So a tensor with orthonormal Tucker factors may be decomposed
through its (smaller) core. -/
theorem C73_basis (hk : kind = .simple ∨ kind = .dt ∨ kind = .msdt) (hfit : OptFits kind n) (hfit' : OptFits kind m)
    (hn : ∀ j, 0 < n j) (hR0 : 0 < R) (hS : Shaped n R V f.W) (hG : Shaped n R V f.G) (hS' : Shaped m R V' f'.W)
    (hG' : Shaped m R V' f'.G) (hl : 0 < lam) (hsv : Spec.SolvesPosDef solve) (Q : Fin N → ℕ → ℕ → ℝ)
    (hQ : ∀ j, ∀ x < n j, ∀ y < n j, ∑ z ∈ range (m j), Q j z x * Q j z y = if x = y then 1 else 0)
    (hV : ∀ idx ∈ Spec.Box m, arr V' N idx = ∑ y ∈ Spec.Box n, (∏ j, Q j (idx j) (y j)) * arr V N y)
    (hW0 : ∀ j, ∀ x < m j, ∀ r < R, mats f'.W j x r = ∑ y ∈ range (n j), Q j x y * mats f.W j y r)
    (hG0 : ∀ j, ∀ x < m j, ∀ r < R, mats f'.G j x r = ∑ y ∈ range (n j), Q j x y * mats f.G j y r) (q : ℕ)
    (lr : Spec.LowRank ℝ) :
    ∃ o0 : OptState ℝ, optInit ℝ N kind = .ok o0 ∧
      ∀ {a : AlsArgs} (clock : ℕ → ℝ) {fuel : ℕ}, a.resprint ≠ 0 → stepLimit N a.maxsweep kind < fuel →
        ∃ r r', cpdAls kind N R lam solve q lr V a clock fuel (o0, f) = .ok r ∧
          cpdAls kind N R lam solve q lr V' a clock fuel (o0, f') = .ok r' ∧
          r'.ret = r.ret ∧ r'.iters = r.iters ∧ r'.sweeps = r.sweeps ∧ r'.rows = r.rows ∧
          ∀ j, ∀ x < m j, ∀ y < R, mats r'.st.2.W j x y = ∑ z ∈ range (n j), Q j x z * mats r.st.2.W j z y := by
  have hfac : ∀ (W : Fin N → ℕ → ℕ → ℝ) j x r, (⟨Q, fun _ _ => 1, Equiv.refl ℕ, 1⟩ : Spec.Coord N).fac n W j x r =
      ∑ y ∈ range (n j), Q j x y * W j y r := fun W j x r => one_mul _
  obtain ⟨o0, _, _, h0, _, _, _, _, _, h⟩ := C73_equivariant hk hfit hfit' hn hR0 hS hG hS' hG' hl hsv hsv
    (k := ⟨Q, fun _ _ => 1, Equiv.refl ℕ, 1⟩) ⟨hQ, fun _ => Iff.rfl, one_ne_zero, fun _ _ => prod_const_one⟩
    (fun j r _ => one_pow _)
    (fun idx hidx => (hV idx hidx).trans (one_mul _).symm)
    (fun j x hx r hr => by rw [hfac, hW0 j x hx r hr])
    (fun j x hx r hr => by rw [hfac, hG0 j x hx r hr]) q lr
  refine ⟨o0, h0, fun {a} clock {fuel} hres hf => ?_⟩
  obtain ⟨r, r', e1, e2, e3, e4, e5, e6, e7⟩ := h (a := a) clock (fuel := fuel) hres hf
  exact ⟨r, r', e1, e2, e3, e4, e5, e6, fun j x hx y hy => by rw [e7 j x hx y hy, hfac]⟩

/-- **C73 (scaling, `lam = 0`).** If the tensor is multiplied by `c ≠ 0` and the columns of the starting factors by `d j r` with
`∏_j d j r = c`, then after any number of steps the factors are those of the original run with their columns multiplied by the same
`d j r`, and the residual is `|c|` times the original one; provided the normal-equation matrices along the original run are positive
definite. -/
theorem C73_scaling (hk : kind = .simple ∨ kind = .dt ∨ kind = .msdt) (hfit : OptFits kind n) (hS : Shaped n R V f.W)
    (hG : Shaped n R V f.G) (hS' : Shaped n R V' f'.W) (hG' : Shaped n R V' f'.G) (hsv : Spec.SolvesPosDef solve)
    (hsv' : Spec.SolvesPosDef solve') {c : ℝ} (hc : c ≠ 0) (d : Fin N → ℕ → ℝ) (hd : ∀ r < R, ∏ j, d j r = c)
    (hV : ∀ idx ∈ Spec.Box n, arr V' N idx = c * arr V N idx)
    (hW0 : ∀ j, ∀ x < n j, ∀ r < R, mats f'.W j x r = d j r * mats f.W j x r)
    (good : ∀ l i, Spec.PosDef R (Spec.normalMat n R 0 (Spec.alsRun n R 0 solve (arr V N) l (facs N f)).W i)) (q : ℕ)
    (lr : Spec.LowRank ℝ) :
    ∃ (o0 : OptState ℝ) (T T' : ℕ → OptState ℝ × Fac ℝ), optInit ℝ N kind = .ok o0 ∧
      (∀ t, iterM (optStep N R 0 solve q lr V) t (o0, f) = .ok (T t)) ∧
      (∀ t, iterM (optStep N R 0 solve' q lr V') t (o0, f') = .ok (T' t)) ∧
      (∀ t j, ∀ x < n j, ∀ r < R, mats (T' t).2.W j x r = d j r * mats (T t).2.W j x r) ∧
      ∀ t, ∃ e, Model.residual V (T t).2.W N = .ok e ∧ Model.residual V' (T' t).2.W N = .ok (|c| * e) := by
  obtain ⟨o0, T, h0, t1, t2, tr⟩ := opt_trace_modes hk hfit hS hG 0 solve q lr
  obtain ⟨o0', T', h0', t1', t2', tr'⟩ := opt_trace_modes hk hfit hS' hG' 0 solve' q lr
  rw [h0] at h0'; cases h0'
  have hT0 : (T 0).2 = f := by rw [← Except.ok.inj (t1 0)]
  have hT0' : (T' 0).2 = f' := by rw [← Except.ok.inj (t1' 0)]
  have h3 := hfit.lo
  have hok : (colCoord (Equiv.refl ℕ) d c).Ok n n R := colCoord_ok (fun _ => Iff.rfl) hc hd
  have hreach : ∀ t, ∃ l, facs N (T t).2 = Spec.alsRun n R 0 solve (arr V N) l (facs N f) := by
    intro t
    induction t with
    | zero => exact ⟨[], by rw [hT0]; rfl⟩
    | succ t ih =>
      obtain ⟨l, hl⟩ := ih
      have := tr.step t
      rw [hl, ← Spec.alsRun_append] at this
      exact ⟨_, this⟩
  have kW : ∀ t j, ∀ x < n j, ∀ r < R, mats (T' t).2.W j x r = d j r * mats (T t).2.W j x r := by
    have : ∀ t, Spec.FacEq n R (facs N (T' t).2).W ((colCoord (Equiv.refl ℕ) d c).fac n (facs N (T t).2).W) := by
      intro t
      induction t with
      | zero =>
        rw [hT0, hT0']
        intro j x hx r hr
        rw [colCoord_fac _ j hx]
        exact hW0 j x hx r hr
      | succ t ih =>
        have e := tr.step t
        have e' := tr'.step t
        rw [e, e']
        refine hok.run_W (.inl rfl) hsv hsv' (fun idx hidx => by rw [colCoord_tensor _ hidx, hV idx hidx]) _ _ _ ih ?_
        intro l i _
        obtain ⟨l0, hl0⟩ := hreach t
        rw [hl0, ← Spec.alsRun_append]
        exact good _ i
    intro t j x hx r hr
    have := this t j x hx r hr
    rw [colCoord_fac _ j hx] at this
    exact this
  refine ⟨o0, T, T', h0, t1, t1', kW, fun t => ⟨_, C16_residual (by omega) hfit.hi (t2 t).1, ?_⟩⟩
  rw [C16_residual (by omega) hfit.hi (t2' t).1]
  congr 1
  have e1 : ∑ idx ∈ Spec.Box n, (arr V' N idx - Spec.recon R (mats (T' t).2.W) idx) ^ 2 =
      Spec.resid2 n R ((colCoord (Equiv.refl ℕ) d c).tensor n (arr V N)) ((colCoord (Equiv.refl ℕ) d c).fac n (mats (T t).2.W)) := by
    refine sum_congr rfl fun idx hidx => ?_
    rw [hV idx hidx, colCoord_tensor _ hidx]
    congr 2
    refine sum_congr rfl fun r hr => prod_congr rfl fun j _ => ?_
    rw [kW t j _ (Spec.mem_Box.1 hidx j) r (mem_range.1 hr), colCoord_fac _ j (Spec.mem_Box.1 hidx j)]
    rfl
  rw [e1, hok.resid]
  change Real.sqrt (c ^ 2 * _) = _
  rw [Real.sqrt_mul (sq_nonneg c), Real.sqrt_sq_eq_abs]
  rfl

/-! Non-vacuity: exchanging the two columns and the signs of two factors; the tensor of twos of shape 2×2×2 inside a tensor of shape
3×3×3; and the tensor of twos times `-3`. -/

section Examples

/-- `exOnesW` with exchanged columns, negative in the first two modes. -/
noncomputable def exSwapW : List (Tensor ℝ) :=
  [⟨[2, 2], fun idx => if idx.getD 1 0 = 1 then -1 else 0⟩, ⟨[3, 2], fun idx => if idx.getD 1 0 = 1 then -1 else 0⟩,
   ⟨[1, 2], fun idx => if idx.getD 1 0 = 1 then 1 else 0⟩, ⟨[4, 2], fun idx => if idx.getD 1 0 = 1 then 1 else 0⟩]

theorem exSwap_shaped : Shaped (N := 4) ![2, 3, 1, 4] 2 exVR exSwapW :=
  ⟨rfl, rfl, by intro j M h; fin_cases j <;> (simp [exSwapW] at h; subst h; rfl)⟩

theorem exOnesW_shapedR : Shaped (N := 4) ![2, 3, 1, 4] 2 exVR exOnesW :=
  ⟨rfl, rfl, by intro j M h; fin_cases j <;> (simp [exOnesW] at h; subst h; rfl)⟩

example : ∃ (k : Kern ℝ) (o0 : OptState ℝ) (r r' : AlsEnd (OptState ℝ × Fac ℝ)),
    cpdAls .msdt 4 2 1 (cholSolver k) 1 exLRR exVR ⟨1 / 1000, 60, 20, 10⟩ (fun _ => 0) 100 (o0, ⟨exOnesW, exOnesW⟩) = .ok r ∧
    cpdAls .msdt 4 2 1 (cholSolver k) 1 exLRR exVR ⟨1 / 1000, 60, 20, 10⟩ (fun _ => 0) 100 (o0, ⟨exSwapW, exSwapW⟩) = .ok r' ∧
    r'.rows = r.rows := by
  obtain ⟨k, hk⟩ := exists_kernOk
  have hm : ∀ j : Fin 4, ∀ x < ![2, 3, 1, 4] j, ∀ r < 2, mats exSwapW j x r =
      (![fun _ => -1, fun _ => -1, fun _ => 1, fun _ => 1] : Fin 4 → ℕ → ℝ) j r * mats exOnesW j x (Equiv.swap 0 1 r) := by
    intro j x _ r hr
    interval_cases r <;> fin_cases j <;> simp [mats, mat, exSwapW, exOnesW]
  obtain ⟨o0, _, h⟩ := C73_columns (N := 4) (.inr (.inr rfl)) exFits (by intro j; fin_cases j <;> norm_num) (by norm_num)
    (f := ⟨exOnesW, exOnesW⟩) (f' := ⟨exSwapW, exSwapW⟩) exOnesW_shapedR exOnesW_shapedR exSwap_shaped exSwap_shaped one_pos
    (C12_cholesky_solver hk) (C12_cholesky_solver hk) (Equiv.swap 0 1)
    (by
      intro r
      by_cases h0 : r = 0
      · subst h0; simp
      · by_cases h1 : r = 1
        · subst h1; simp
        · rw [Equiv.swap_apply_of_ne_of_ne h0 h1])
    (![fun _ => -1, fun _ => -1, fun _ => 1, fun _ => 1] : Fin 4 → ℕ → ℝ)
    (by intro j r; fin_cases j <;> simp) (by intro r _; simp [Fin.prod_univ_four]) hm hm 1 exLRR
  obtain ⟨r, r', e1, e2, _, _, _, e3, _⟩ := h (a := ⟨1 / 1000, 60, 20, 10⟩) (fun _ => 0) (fuel := 100) (by norm_num) (by
      simp only [stepLimit]
      refine lt_of_le_of_lt (Nat.ceil_le.2 (?_ : _ ≤ ((28 : ℕ) : ℚ))) (by norm_num)
      norm_num)
  exact ⟨k, o0, r, r', e1, e2, e3⟩

/-- The tensor of twos of shape 2×2×2 in the corner of a tensor of shape 3×3×3. -/
noncomputable def exBigV : Tensor ℝ := ⟨[3, 3, 3], fun idx => if idx.getD 0 0 < 2 ∧ idx.getD 1 0 < 2 ∧ idx.getD 2 0 < 2 then 2 else 0⟩

/-- The corresponding factors. -/
noncomputable def exBigW : List (Tensor ℝ) :=
  [⟨[3, 1], fun idx => if idx.getD 0 0 < 2 then 1 else 0⟩, ⟨[3, 1], fun idx => if idx.getD 0 0 < 2 then 1 else 0⟩,
   ⟨[3, 1], fun idx => if idx.getD 0 0 < 2 then 1 else 0⟩]

theorem exBigShaped : Shaped (N := 3) (fun _ => 3) 1 exBigV exBigW :=
  ⟨rfl, rfl, by intro j M h; fin_cases j <;> (simp [exBigW] at h; subst h; rfl)⟩

example : ∃ (k : Kern ℝ) (o0 : OptState ℝ) (r r' : AlsEnd (OptState ℝ × Fac ℝ)),
    cpdAls .simple 3 1 1 (cholSolver k) 1 exLRR exTwosV ⟨1 / 1000, 60, 20, 10⟩ (fun _ => 0) 100 (o0, ⟨exTwosW, exTwosW⟩) = .ok r ∧
    cpdAls .simple 3 1 1 (cholSolver k) 1 exLRR exBigV ⟨1 / 1000, 60, 20, 10⟩ (fun _ => 0) 100 (o0, ⟨exBigW, exBigW⟩) = .ok r' ∧
    r'.rows = r.rows := by
  obtain ⟨k, hk⟩ := exists_kernOk
  have hm : ∀ j : Fin 3, ∀ x < 3, ∀ r < 1, mats exBigW j x r =
      ∑ y ∈ range 2, (if x = y then 1 else 0 : ℝ) * mats exTwosW j y r := by
    intro j x hx r hr
    interval_cases r
    interval_cases x <;> fin_cases j <;> simp [mats, mat, exTwosW, exBigW]
  obtain ⟨o0, _, h⟩ := C73_basis (N := 3) (kind := .simple) (n := fun _ => 2) (m := fun _ => 3) (.inl rfl)
    ⟨by norm_num, by norm_num, fun _ => ⟨by norm_num, 2, rfl⟩⟩ ⟨by norm_num, by norm_num, fun _ => ⟨by norm_num, 3, rfl⟩⟩
    (by intro j; norm_num) (by norm_num) (f := ⟨exTwosW, exTwosW⟩) (f' := ⟨exBigW, exBigW⟩) exTwosShaped exTwosShaped
    exBigShaped exBigShaped one_pos (C12_cholesky_solver hk) (fun _ x y => if x = y then 1 else 0)
    (by
      intro j x hx y hy
      interval_cases x <;> interval_cases y <;> simp [sum_range_succ])
    (by
      intro idx hidx
      have h3 := Spec.mem_Box.1 hidx
      by_cases h : ∀ j, idx j < 2
      · rw [sum_eq_single_of_mem idx (Spec.mem_Box.2 h)]
        · have := h 0; have := h 1; have := h 2
          simp [arr, exBigV, exTwosV, *]
          omega
        · intro y _ hy
          obtain ⟨j, hj⟩ := Function.ne_iff.1 hy
          rw [prod_eq_zero (mem_univ j) (if_neg (Ne.symm hj)), zero_mul]
      · rw [sum_eq_zero]
        · have : ¬ (idx 0 < 2 ∧ idx 1 < 2 ∧ idx 2 < 2) := fun hh => h (by intro j; fin_cases j <;> simp [hh.1, hh.2.1, hh.2.2])
          simp only [arr, exBigV]
          rw [if_neg]
          simpa using this
        · intro y hy
          push Not at h
          obtain ⟨j, hj⟩ := h
          have := Spec.mem_Box.1 hy j
          rw [prod_eq_zero (mem_univ j) (if_neg (by omega)), zero_mul])
    hm hm 1 exLRR
  obtain ⟨r, r', e1, e2, _, _, _, e3, _⟩ := h (a := ⟨1 / 1000, 60, 20, 10⟩) (fun _ => 0) (fuel := 100) (by norm_num) (by
      simp [stepLimit])
  exact ⟨k, o0, r, r', e1, e2, e3⟩

/-- The first factor of `exTwosW` doubled: an exact decomposition of the tensor of twos. -/
noncomputable def exTwosE : List (Tensor ℝ) := [⟨[2, 1], fun _ => 2⟩, ⟨[2, 1], fun _ => 1⟩, ⟨[2, 1], fun _ => 1⟩]

/-- The tensor of twos times `-3`. -/
noncomputable def exScaledV : Tensor ℝ := ⟨[2, 2, 2], fun _ => -6⟩

/-- `exTwosE` with the second factor times `-3`. -/
noncomputable def exScaledW : List (Tensor ℝ) := [⟨[2, 1], fun _ => 2⟩, ⟨[2, 1], fun _ => -3⟩, ⟨[2, 1], fun _ => 1⟩]

example : ∃ (k : Kern ℝ) (o0 : OptState ℝ) (T T' : ℕ → OptState ℝ × Fac ℝ),
    (∀ t, iterM (optStep 3 1 0 (cholSolver k) 1 exLRR exTwosV) t (o0, ⟨exTwosE, exTwosE⟩) = .ok (T t)) ∧
    (∀ t, iterM (optStep 3 1 0 (cholSolver k) 1 exLRR exScaledV) t (o0, ⟨exScaledW, exScaledW⟩) = .ok (T' t)) ∧
    ∀ t, ∃ e, Model.residual exTwosV (T t).2.W 3 = .ok e ∧ Model.residual exScaledV (T' t).2.W 3 = .ok (|(-3)| * e) := by
  obtain ⟨k, hk⟩ := exists_kernOk
  have hmE : ∀ (j : Fin 3) (x r : ℕ), mats exTwosE j x r = (![2, 1, 1] : Fin 3 → ℝ) j := by
    intro j x r
    fin_cases j <;> rfl
  have sE : Shaped (N := 3) (fun _ => 2) 1 exTwosV exTwosE :=
    ⟨rfl, rfl, by intro j M h; fin_cases j <;> (simp [exTwosE] at h; subst h; rfl)⟩
  have sS : Shaped (N := 3) (fun _ => 2) 1 exScaledV exScaledW :=
    ⟨rfl, rfl, by intro j M h; fin_cases j <;> (simp [exScaledW] at h; subst h; rfl)⟩
  have hex : Exact (fun _ : Fin 3 => 2) 1 (arr exTwosV 3) (mats exTwosE) := by
    intro idx _
    simp only [Spec.recon, hmE, sum_range_one, Fin.prod_univ_three]
    norm_num [arr, exTwosV]
    rfl
  have hpd : ∀ i : Fin 3, Spec.PosDef 1 (Spec.normalMat (fun _ : Fin 3 => 2) 1 0 (mats exTwosE) i) := by
    intro i
    refine ⟨fun a ha b hb => ?_, fun v hv => ?_⟩
    · interval_cases a; interval_cases b; rfl
    · obtain ⟨a, ha, hva⟩ := hv
      interval_cases a
      have : 0 < Spec.normalMat (fun _ : Fin 3 => 2) 1 (0 : ℝ) (mats exTwosE) i 0 0 := by
        simp only [Spec.normalMat, Spec.clip, Spec.gramExcept, Spec.gram, hmE]
        norm_num
        refine prod_pos fun j _ => ?_
        fin_cases j <;> norm_num
      simp only [sum_range_one]
      rw [mul_right_comm]
      exact mul_pos (mul_self_pos.2 hva) this
  obtain ⟨o0, T, T', _, h1, h2, _, h3⟩ := C73_scaling (N := 3) (kind := .simple) (n := fun _ => 2) (.inl rfl)
    ⟨by norm_num, by norm_num, fun _ => ⟨by norm_num, 2, rfl⟩⟩ (f := ⟨exTwosE, exTwosE⟩) (f' := ⟨exScaledW, exScaledW⟩) sE sE sS sS
    (C12_cholesky_solver hk) (C12_cholesky_solver hk) (c := -3) (by norm_num) (fun j _ => (![1, -3, 1] : Fin 3 → ℝ) j)
    (by intro r _; simp [Fin.prod_univ_three])
    (by intro idx _; norm_num [arr, exTwosV, exScaledV])
    (by intro j x _ r _; fin_cases j <;> norm_num [mats, mat, exScaledW, exTwosE])
    (by
      intro l i
      obtain ⟨e, _⟩ := Spec.alsRun_fixed (C12_cholesky_solver hk) (fun i _ => hpd i) (fun i => exact_stationary hex) l
        (facs 3 ⟨exTwosE, exTwosE⟩) (fun _ _ _ _ _ => rfl)
      rw [Spec.normalMat_congr e]
      exact hpd i) 1 exLRR
  exact ⟨k, o0, T, T', h1, h2, h3⟩

end Examples

end Properties
