import Verif.Proofs.SymLegacy
import Verif.Properties.LegacyLoop
import Verif.Properties.PPDriver
import Verif.Properties.PartDriver

/-! # C89: the legacy CP drivers commute with changes of coordinates -/

namespace Properties

open Model Finset

variable {N : ℕ} {n m : Fin N → ℕ} {R : ℕ} {V V' : Tensor ℝ} {lam : ℝ} {k : Spec.Coord N}

theorem coord_pos (hok : k.Ok n m R) (hn : ∀ j, 0 < n j) (j : Fin N) : 0 < m j := by
  rcases Nat.eq_zero_or_pos (m j) with h | h
  · have := hok.orth j 0 (hn j) 0 (hn j)
    rw [h] at this
    simp at this
  · exact h

/-- **C89 (`alsCP_DT`).** Orders 4 and 6 to 18, `lam > 0`, the matrices `F` zero, solvers that are exact for positive definite systems
(not necessarily the same one twice).  Two problems that differ by a change of coordinates, as in C73: tensor and starting factors of
the second are those of the first multiplied in every mode by a matrix with orthonormal columns, the columns of all factors reordered
in the same way and their signs changed consistently; likewise the gradients passed by the caller.  Then both runs return the same
value after the same number of sweeps and write the same log, and the resulting factors and gradients are still related in this way. -/
theorem C89_cp_dt (h4 : 4 ≤ N) (h5 : N ≠ 5) (hN : N ≤ 18) (hn : ∀ j, 0 < n j) (hR0 : 0 < R) (hl : 0 < lam)
    {solve solve' : Spec.Solver ℝ} (hs : Spec.SolvesPosDef solve) (hs' : Spec.SolvesPosDef solve') {F F' : List (Tensor ℝ)}
    (hF : Shaped n R V F) (hF' : Shaped m R V' F') (hF0 : ∀ i x r, mats (N := N) F i x r = 0)
    (hF0' : ∀ i x r, mats (N := N) F' i x r = 0) {f f' : Fac ℝ} (hS : Shaped n R V f.W) (hG : Shaped n R V f.G)
    (hS' : Shaped m R V' f'.W) (hG' : Shaped m R V' f'.G) (hok : k.Ok n m R) (hd : ∀ j, ∀ r < R, k.d j r ^ 2 = 1)
    (hV : ∀ idx ∈ Spec.Box m, arr V' N idx = k.tensor n (arr V N) idx)
    (hW0 : ∀ j, ∀ x < m j, ∀ r < R, mats f'.W j x r = k.fac n (mats f.W) j x r)
    (hG0 : ∀ j, ∀ x < m j, ∀ r < R, mats f'.G j x r = k.fac n (mats f.G) j x r) {a : LLArgs} (hm : 0 ≤ a.maxiter)
    (hres : a.resprint ≠ 0) (clock : ℕ → ℝ) {fuel : ℕ} (hf : (a.maxiter + 1).toNat < fuel) :
    ∃ r r', alsCPDT N R lam solve V F a clock fuel f = .ok r ∧ alsCPDT N R lam solve' V' F' a clock fuel f' = .ok r' ∧
      r'.iter = r.iter ∧ r'.ret = r.ret ∧ r'.rows = r.rows ∧
      (∀ j, ∀ x < m j, ∀ c < R, mats r'.st.W j x c = k.fac n (mats r.st.W) j x c) ∧
      ∀ j, ∀ x < m j, ∀ c < R, mats r'.st.G j x c = k.fac n (mats r.st.G) j x c := by
  obtain ⟨r, _, _, h1, _⟩ := C48_cp_dt h4 h5 hN hF hS hG.count lam solve hm hres clock hf
  have H : LLSim (fun g g' : Fac ℝ => Moved k n m R V V' g.W g'.W ∧ Moved k n m R V V' g.G g'.G)
      (cpDTHooks N R lam solve V F a) (cpDTHooks N R lam solve' V' F' a) :=
    { checked := fun _ => Iff.rfl
      check := by
        rintro s t ⟨st1, st2⟩
        obtain ⟨g, g1, g2⟩ := st2.gradnorm hok hd
        obtain ⟨e, e1, e2⟩ := st1.residual (by omega) hN hR0 hok hd hV
        simp only [cpDTHooks, g1, g2, e1, e2, bind, Except.bind]
        exact ⟨⟨st1, st2⟩, rfl⟩
      accept := fun _ _ h => h
      sweep := by
        rintro s t ⟨st1, st2⟩
        obtain ⟨g, g', g1, g2, g3, g4⟩ := st1.legacySweep h4 h5 (by omega) hn hl hs hs' hF hF' hF0 hF0' st2 hok hd hV
        simp only [cpDTHooks, g1, g2]
        exact ⟨g3, g4⟩ }
  obtain ⟨r', h2, h3, h4, h5, h6, h7⟩ := (llLoop_sim H a clock fuel 0 f f' [] ⟨⟨hS, hS', hW0⟩, ⟨hG, hG', hG0⟩⟩).of_ok h1
  exact ⟨r, r', h1, h2, h4, h7, h5, h3.1.eq, h3.2.eq⟩

/-- The states of two runs of `alsCP_PP` between phases. -/
def PPMovedI (k : Spec.Coord N) (n m : Fin N → ℕ) (R : ℕ) (V V' : Tensor ℝ) (s t : CPPPState) : Prop :=
  Moved k n m R V V' s.W t.W ∧ Moved k n m R V V' s.G t.G ∧ Moved k n m R V V' s.dW t.dW

/-- ... in a dimension tree phase. -/
def PPMovedD (k : Spec.Coord N) (n m : Fin N → ℕ) (R : ℕ) (V V' : Tensor ℝ) (s t : CPPPState) : Prop :=
  PPMovedI k n m R V V' s t ∧ Moved k n m R V V' s.Wprev t.Wprev

/-- ... in a PP phase. -/
def PPMovedQ (k : Spec.Coord N) (n m : Fin N → ℕ) (R : ℕ) (V V' : Tensor ℝ) (s t : CPPPState) : Prop :=
  PPMovedI k n m R V V' s t ∧ Moved k n m R V V' s.Winit t.Winit ∧ PPOps n R V s.Winit s.ops ∧ PPOps m R V' t.Winit t.ops

theorem cpPP_sim (h4 : 4 ≤ N) (h5 : N ≠ 5) (h9 : N ≤ 9) (hn : ∀ j, 0 < n j) (hR0 : 0 < R) (hl : 0 < lam) (same same' : Bool)
    (ratio tolInit : ℝ) {kn kn' : Kern ℝ} (hk : KernOk kn) (hk' : KernOk kn') (hok : k.Ok n m R)
    (hd : ∀ j, ∀ r < R, k.d j r ^ 2 = 1) (hV : ∀ idx ∈ Spec.Box m, arr V' N idx = k.tensor n (arr V N) idx) :
    PPSim (PPMovedI k n m R V V') (PPMovedD k n m R V V') (PPMovedQ k n m R V V') (cpPPHooks same N R lam ratio tolInit kn V)
      (cpPPHooks same' N R lam ratio tolInit kn' V') where
  DI _ _ h := h.1
  QI _ _ h := h.1
  dtBegin s t h := ⟨h, h.1.zeros⟩
  dtSweep := by
    rintro s t ⟨⟨h1, h2, h3⟩, h6⟩
    obtain ⟨g, g', g1, g2, g3, g4⟩ := Moved.legacySweep (f := ⟨s.W, s.G⟩) (f' := ⟨t.W, t.G⟩) h4 h5 (by omega) hn hl
      (C12_svd_solver hk) (C12_svd_solver hk') (zeros_shape h1.old) (zeros_shape h1.new) (zeros_mats _) (zeros_mats _) h1 h2 hok hd hV
    obtain ⟨D, D', d1, d2, d3⟩ := g3.diffs h6 hok
    simp only [cpPPHooks, g1, g2, d1, d2, bind, Except.bind]
    exact ⟨⟨g3, g4, d3⟩, g3⟩
  dtClose := by
    rintro s t ⟨⟨h1, h2, h3⟩, h6⟩
    obtain ⟨l, l1, l2⟩ := h1.ratioTests h3 hok hd fun a b => quotLt a b tolInit
    simp only [cpPPHooks, l1, l2, bind, Except.bind]
    rfl
  ppFar := by
    rintro s t ⟨h1, h2, h3⟩
    obtain ⟨l, l1, l2⟩ := h1.ratioTests h3 hok hd fun a b => quotGt a b tolInit
    simp only [cpPPHooks, l1, l2, bind, Except.bind]
    rfl
  ppBegin := by
    rintro s t ⟨h1, h2, h3⟩
    obtain ⟨o, o1, o2⟩ := ppOperators_ok (by omega) h9 same h1.old
    obtain ⟨o', p1, p2⟩ := ppOperators_ok (by omega) h9 same' h1.new
    simp only [cpPPHooks, o1, p1, bind, Except.bind]
    exact ⟨⟨h1, h2, h3.zeros⟩, h1, o2, p2⟩
  ppSweep := by
    rintro s t ⟨⟨h1, h2, h3⟩, h6, h7, h8⟩
    have := MovedPP.sweep (by omega) h7 h8 h6 (s := ⟨s.W, s.G, s.dW⟩) (s' := ⟨t.W, t.G, t.dW⟩) ⟨h1, h2, h3⟩ hl hk hk' hn
      (coord_pos hok hn) hok hd hV (ratio := ratio)
    simp only [cpPPHooks]
    exact this.bind fun a b hab => ⟨⟨hab.W, hab.G, hab.dW⟩, h6, h7, h8⟩
  checkD := by
    rintro s t ⟨⟨h1, h2, h3⟩, h6⟩
    obtain ⟨g, g1, g2⟩ := h2.gradnorm hok hd
    obtain ⟨e, e1, e2⟩ := h1.residual (by omega) (by omega) hR0 hok hd hV
    simp only [cpPPHooks, g1, g2, e1, e2, bind, Except.bind]
    exact ⟨⟨⟨h1, h2, h3⟩, h6⟩, rfl⟩
  checkQ := by
    rintro s t ⟨⟨h1, h2, h3⟩, h6⟩
    obtain ⟨g, g1, g2⟩ := h2.gradnorm hok hd
    obtain ⟨e, e1, e2⟩ := h1.residual (by omega) (by omega) hR0 hok hd hV
    simp only [cpPPHooks, g1, g2, e1, e2, bind, Except.bind]
    exact ⟨⟨⟨h1, h2, h3⟩, h6⟩, rfl⟩
  acceptD _ _ h := h
  acceptQ _ _ h := h
  endRound _ _ h := h

/-- **C89 (`alsCP_PP`).** Orders 4 and 6 to 9, `lam > 0`, dense kernels that satisfy their contract (not necessarily the same twice),
damping `ratio` and threshold `tolInit` arbitrary.  If two problems differ by a change of coordinates, the two runs of the pairwise
perturbation driver go through the same phases: the same sequence of dimension-tree sweeps, PP phases and PP sweeps, the same
decisions whether to leave the neighbourhood of `W_init`, the same lines of the log, the same measured gradient norm, the same number of sweeps and returned
value; and the resulting factors and gradients are still related by the change of coordinates. -/
theorem C89_cp_pp (h4 : 4 ≤ N) (h5 : N ≠ 5) (h9 : N ≤ 9) (hn : ∀ j, 0 < n j) (hR0 : 0 < R) (hl : 0 < lam) (same same' : Bool)
    (ratio tolInit : ℝ) {kn kn' : Kern ℝ} (hk : KernOk kn) (hk' : KernOk kn') {W G W' G' : List (Tensor ℝ)}
    (hS : Shaped n R V W) (hG : Shaped n R V G) (hS' : Shaped m R V' W') (hG' : Shaped m R V' G') (hok : k.Ok n m R)
    (hd : ∀ j, ∀ r < R, k.d j r ^ 2 = 1) (hV : ∀ idx ∈ Spec.Box m, arr V' N idx = k.tensor n (arr V N) idx)
    (hW0 : ∀ j, ∀ x < m j, ∀ r < R, mats W' j x r = k.fac n (mats W) j x r)
    (hG0 : ∀ j, ∀ x < m j, ∀ r < R, mats G' j x r = k.fac n (mats G) j x r) (c : PPCfg) (hm : 0 ≤ c.maxiter) (hr : c.resprint ≠ 0)
    (clock : ℕ → ℝ) (hclk : ∀ t, clock t ≤ c.timelimit) (fuel : ℕ) (hf : c.maxiter + 3 < fuel) :
    ∃ r r' ret, alsCPPP same N R lam ratio tolInit kn V c clock fuel W G = .ok (r, ret) ∧
      alsCPPP same' N R lam ratio tolInit kn' V' c clock fuel W' G' = .ok (r', ret) ∧
      r'.iter = r.iter ∧ r'.grad = r.grad ∧ r'.trace = r.trace ∧
      (∀ j, ∀ x < m j, ∀ q < R, mats r'.st.W j x q = k.fac n (mats r.st.W) j x q) ∧
      ∀ j, ∀ x < m j, ∀ q < R, mats r'.st.G j x q = k.fac n (mats r.st.G) j x q := by
  obtain ⟨r, ret, r1, _⟩ := C30_terminates h4 h5 h9 same lam ratio tolInit hk hS hG.count c hm hr clock hclk fuel hf
  have hW : Moved k n m R V V' W W' := ⟨hS, hS', hW0⟩
  have H := ppDriver_sim (cpPP_sim h4 h5 h9 hn hR0 hl same same' ratio tolInit hk hk' hok hd hV) { c with tucker := false } clock fuel
    (s := ⟨W, G, W.map zerosLike, [], [], []⟩) (t := ⟨W', G', W'.map zerosLike, [], [], []⟩) ⟨hW, ⟨hG, hG', hG0⟩, hW.zeros⟩
  obtain ⟨⟨r', ret'⟩, q1, q2, q3⟩ := H.of_ok r1
  simp only at q2 q3
  subst q3
  exact ⟨r, r', _, r1, q1, q2.2.1, q2.2.2.1, q2.2.2.2.2, q2.1.1.eq, q2.1.2.1.eq⟩

/-- **C89 (`alsCP_PP`, no termination assumed).** Whatever the clock and the limits, the two runs succeed alike or fail alike. -/
theorem C89_cp_pp_alike (h4 : 4 ≤ N) (h5 : N ≠ 5) (h9 : N ≤ 9) (hn : ∀ j, 0 < n j) (hR0 : 0 < R) (hl : 0 < lam) (same same' : Bool)
    (ratio tolInit : ℝ) {kn kn' : Kern ℝ} (hk : KernOk kn) (hk' : KernOk kn') {W G W' G' : List (Tensor ℝ)}
    (hS : Shaped n R V W) (hG : Shaped n R V G) (hS' : Shaped m R V' W') (hG' : Shaped m R V' G') (hok : k.Ok n m R)
    (hd : ∀ j, ∀ r < R, k.d j r ^ 2 = 1) (hV : ∀ idx ∈ Spec.Box m, arr V' N idx = k.tensor n (arr V N) idx)
    (hW0 : ∀ j, ∀ x < m j, ∀ r < R, mats W' j x r = k.fac n (mats W) j x r)
    (hG0 : ∀ j, ∀ x < m j, ∀ r < R, mats G' j x r = k.fac n (mats G) j x r) (c : PPCfg) (clock : ℕ → ℝ) (fuel : ℕ) :
    (∃ e, alsCPPP same N R lam ratio tolInit kn V c clock fuel W G = .error e ∧
      alsCPPP same' N R lam ratio tolInit kn' V' c clock fuel W' G' = .error e) ∨
    ∃ r r' ret, alsCPPP same N R lam ratio tolInit kn V c clock fuel W G = .ok (r, ret) ∧
      alsCPPP same' N R lam ratio tolInit kn' V' c clock fuel W' G' = .ok (r', ret) ∧
      r'.iter = r.iter ∧ r'.grad = r.grad ∧ r'.trace = r.trace ∧
      ∀ j, ∀ x < m j, ∀ q < R, mats r'.st.W j x q = k.fac n (mats r.st.W) j x q := by
  have hW : Moved k n m R V V' W W' := ⟨hS, hS', hW0⟩
  have H := ppDriver_sim (cpPP_sim h4 h5 h9 hn hR0 hl same same' ratio tolInit hk hk' hok hd hV) { c with tucker := false } clock fuel
    (s := ⟨W, G, W.map zerosLike, [], [], []⟩) (t := ⟨W', G', W'.map zerosLike, [], [], []⟩) ⟨hW, ⟨hG, hG', hG0⟩, hW.zeros⟩
  change Alike _ (alsCPPP same N R lam ratio tolInit kn V c clock fuel W G) (alsCPPP same' N R lam ratio tolInit kn' V' c clock fuel W' G') at H
  rcases h1 : alsCPPP same N R lam ratio tolInit kn V c clock fuel W G with e | ⟨r, ret⟩ <;>
    rcases h2 : alsCPPP same' N R lam ratio tolInit kn' V' c clock fuel W' G' with e' | ⟨r', ret'⟩ <;> rw [h1, h2] at H
  · exact .inl ⟨e, rfl, congrArg _ H⟩
  · exact H.elim
  · exact H.elim
  · obtain ⟨q2, q3⟩ := H
    simp only at q2 q3
    subst q3
    exact .inr ⟨r, r', _, rfl, rfl, q2.2.1, q2.2.2.1, q2.2.2.2.2, q2.1.1.eq⟩

/-- **C89 (columns, choice of the SVD).** The result of `alsCP_PP` does not depend on the SVD routine (as long as it satisfies its
contract) and, up to the same changes, neither on the order of the columns nor on the distribution of signs over the factors. -/
theorem C89_pp_columns (h4 : 4 ≤ N) (h5 : N ≠ 5) (h9 : N ≤ 9) (hn : ∀ j, 0 < n j) (hR0 : 0 < R) (hl : 0 < lam) (same : Bool)
    (ratio tolInit : ℝ) {kn kn' : Kern ℝ} (hk : KernOk kn) (hk' : KernOk kn') {W G W' G' : List (Tensor ℝ)}
    (hS : Shaped n R V W) (hG : Shaped n R V G) (hS' : Shaped n R V W') (hG' : Shaped n R V G')
    (σ : Equiv.Perm ℕ) (hσ : ∀ r, σ r < R ↔ r < R) (s : Fin N → ℕ → ℝ) (hs : ∀ j r, s j r = 1 ∨ s j r = -1)
    (hs1 : ∀ r < R, ∏ j, s j r = 1) (hW0 : ∀ j, ∀ x < n j, ∀ r < R, mats W' j x r = s j r * mats W j x (σ r))
    (hG0 : ∀ j, ∀ x < n j, ∀ r < R, mats G' j x r = s j r * mats G j x (σ r)) (c : PPCfg) (hm : 0 ≤ c.maxiter) (hr : c.resprint ≠ 0)
    (clock : ℕ → ℝ) (hclk : ∀ t, clock t ≤ c.timelimit) (fuel : ℕ) (hf : c.maxiter + 3 < fuel) :
    ∃ r r' ret, alsCPPP same N R lam ratio tolInit kn V c clock fuel W G = .ok (r, ret) ∧
      alsCPPP same N R lam ratio tolInit kn' V c clock fuel W' G' = .ok (r', ret) ∧
      r'.iter = r.iter ∧ r'.grad = r.grad ∧ r'.trace = r.trace ∧
      ∀ j, ∀ x < n j, ∀ q < R, mats r'.st.W j x q = s j q * mats r.st.W j x (σ q) := by
  obtain ⟨r, r', ret, h1, h2, h3, h6, h7, h8, _⟩ := C89_cp_pp h4 h5 h9 hn hR0 hl same same ratio tolInit hk hk' hS hG hS' hG'
    (colCoord_ok (n := n) (σ := σ) (d := s) (c := 1) hσ one_ne_zero hs1)
    (fun j r _ => by rcases hs j r with h | h <;> simp [colCoord, h])
    (fun idx hidx => by rw [colCoord_tensor _ hidx, one_mul])
    (fun j x hx r hr => by rw [colCoord_fac _ j hx, hW0 j x hx r hr])
    (fun j x hx r hr => by rw [colCoord_fac _ j hx, hG0 j x hx r hr]) c hm hr clock hclk fuel hf
  exact ⟨r, r', ret, h1, h2, h3, h6, h7, fun j x hx q hq => by rw [h8 j x hx q hq, colCoord_fac _ j hx]⟩

/-- **C89 (change of basis).** `Q_j` are matrices with orthonormal columns, orthogonal or tall.  Running `alsCP_PP` on
`V ×_1 Q_1 ... ×_N Q_N` from the factors `Q_j W_j` takes the same decisions as on `V` from `W_j` and returns `Q_j` times its factors. -/
theorem C89_pp_basis (h4 : 4 ≤ N) (h5 : N ≠ 5) (h9 : N ≤ 9) (hn : ∀ j, 0 < n j) (hR0 : 0 < R) (hl : 0 < lam) (same : Bool)
    (ratio tolInit : ℝ) {kn : Kern ℝ} (hk : KernOk kn) {W G W' G' : List (Tensor ℝ)}
    (hS : Shaped n R V W) (hG : Shaped n R V G) (hS' : Shaped m R V' W') (hG' : Shaped m R V' G') (Q : Fin N → ℕ → ℕ → ℝ)
    (hQ : ∀ j, ∀ x < n j, ∀ y < n j, ∑ z ∈ range (m j), Q j z x * Q j z y = if x = y then 1 else 0)
    (hV : ∀ idx ∈ Spec.Box m, arr V' N idx = ∑ y ∈ Spec.Box n, (∏ j, Q j (idx j) (y j)) * arr V N y)
    (hW0 : ∀ j, ∀ x < m j, ∀ r < R, mats W' j x r = ∑ y ∈ range (n j), Q j x y * mats W j y r)
    (hG0 : ∀ j, ∀ x < m j, ∀ r < R, mats G' j x r = ∑ y ∈ range (n j), Q j x y * mats G j y r) (c : PPCfg) (hm : 0 ≤ c.maxiter)
    (hr : c.resprint ≠ 0) (clock : ℕ → ℝ) (hclk : ∀ t, clock t ≤ c.timelimit) (fuel : ℕ) (hf : c.maxiter + 3 < fuel) :
    ∃ r r' ret, alsCPPP same N R lam ratio tolInit kn V c clock fuel W G = .ok (r, ret) ∧
      alsCPPP same N R lam ratio tolInit kn V' c clock fuel W' G' = .ok (r', ret) ∧
      r'.iter = r.iter ∧ r'.grad = r.grad ∧ r'.trace = r.trace ∧
      ∀ j, ∀ x < m j, ∀ q < R, mats r'.st.W j x q = ∑ y ∈ range (n j), Q j x y * mats r.st.W j y q := by
  have hfac : ∀ (W : Fin N → ℕ → ℕ → ℝ) j x r, (⟨Q, fun _ _ => 1, Equiv.refl ℕ, 1⟩ : Spec.Coord N).fac n W j x r =
      ∑ y ∈ range (n j), Q j x y * W j y r := fun W j x r => one_mul _
  obtain ⟨r, r', ret, h1, h2, h3, h6, h7, h8, _⟩ := C89_cp_pp h4 h5 h9 hn hR0 hl same same ratio tolInit hk hk hS hG hS' hG'
    (k := ⟨Q, fun _ _ => 1, Equiv.refl ℕ, 1⟩) ⟨hQ, fun _ => Iff.rfl, one_ne_zero, fun _ _ => prod_const_one⟩
    (fun j r _ => one_pow _)
    (fun idx hidx => (hV idx hidx).trans (one_mul _).symm)
    (fun j x hx r hr => by rw [hfac, hW0 j x hx r hr])
    (fun j x hx r hr => by rw [hfac, hG0 j x hx r hr]) c hm hr clock hclk fuel hf
  exact ⟨r, r', ret, h1, h2, h3, h6, h7, fun j x hx q hq => by rw [h8 j x hx q hq, hfac]⟩

/-- ... in a PP phase with partial updates. -/
def PartMovedQ (k : Spec.Coord N) (n m : Fin N → ℕ) (R : ℕ) (V V' : Tensor ℝ) (s t : PartPPState) : Prop :=
  PPMovedQ k n m R V V' s.cp t.cp ∧ Moved k n m R V V' s.dM t.dM ∧ Moved k n m R V V' s.M t.M ∧ t.rel = s.rel ∧ s.rel.length = N

theorem part_sim (h4 : 4 ≤ N) (h5 : N ≠ 5) (h9 : N ≤ 9) (hn : ∀ j, 0 < n j) (hR0 : 0 < R) (hl : 0 < lam) (same same' : Bool)
    (ratio tolInit p : ℝ) {kn kn' : Kern ℝ} (hk : KernOk kn) (hk' : KernOk kn') {srt : List Rel → List ℕ} (hsrt : SortSpec srt)
    (hok : k.Ok n m R) (hd : ∀ j, ∀ r < R, k.d j r ^ 2 = 1)
    (hV : ∀ idx ∈ Spec.Box m, arr V' N idx = k.tensor n (arr V N) idx) :
    PPSim (fun s t => PPMovedI k n m R V V' s.cp t.cp) (fun s t => PPMovedD k n m R V V' s.cp t.cp) (PartMovedQ k n m R V V')
      (partPPHooks same N R lam ratio tolInit p kn srt V) (partPPHooks same' N R lam ratio tolInit p kn' srt V') := by
  have H := cpPP_sim h4 h5 h9 hn hR0 hl same same' ratio tolInit hk hk' hok hd hV
  refine ⟨fun _ _ h => h.1, fun _ _ h => h.1.1, ?_, ?_, ?_, ?_, ?_, ?_, ?_, ?_, ?_, ?_, fun _ _ h => h⟩
  · intro s t h
    exact (H.dtBegin _ _ h).bind fun a b hab => hab
  · intro s t h
    exact (H.dtSweep _ _ h).bind fun a b hab => hab
  · intro s t h
    exact H.dtClose _ _ h
  · intro s t h
    exact H.ppFar _ _ h
  · intro s t h
    refine (H.ppBegin _ _ h).bind fun a b hab => ?_
    exact ⟨hab, hab.1.1.zeros, hab.1.1.zeros, rfl, by simp [partInit]⟩
  · rintro s t ⟨⟨⟨h1, h2, h3⟩, h6, h7, h8⟩, h10, h11, h12, h13⟩
    have := MovedPart.sweep (by omega) h7 h8 h6 (s := ⟨s.cp.W, s.cp.G, s.cp.dW, s.dM, s.M, s.rel⟩)
      (s' := ⟨t.cp.W, t.cp.G, t.cp.dW, t.dM, t.M, t.rel⟩) ⟨h1, h2, h3, h10, h11, h12, h13⟩ hl hk hk' hsrt hn
      (coord_pos hok hn) hok hd hV (ratio := ratio) (p := p)
    simp only [partPPHooks]
    exact this.bind fun a b hab => ⟨⟨⟨hab.W, hab.G, hab.dW⟩, h6, h7, h8⟩, hab.dM, hab.M, hab.rel, hab.len⟩
  · intro s t h
    exact (H.checkD _ _ h).bind fun a b hab => hab
  · rintro s t ⟨h, h'⟩
    obtain ⟨g, g1, g2⟩ := h.1.2.1.gradnorm hok hd
    obtain ⟨e, e1, e2⟩ := h.1.1.residual (by omega) (by omega) hR0 hok hd hV
    simp only [partPPHooks, cpPPHooks, g1, g2, e1, e2, bind, Except.bind]
    exact ⟨⟨h, h'⟩, rfl⟩
  · intro s t h
    exact (H.acceptD _ _ h).bind fun a b hab => hab
  · intro s t h
    exact h

/-- **C89 (`alsCP_PP_partupdate`).** The driver with partial updates, any update percentage `p`, a deterministic sorting function that
satisfies its contract: the two runs select the same modes.  They fail alike (sorting NaN priorities or reading past the end of the
sorted indices is undefined behaviour in both, a livelock is one in both), or they succeed with the same phases, sweeps, gradient norm
and returned value, and factors that are still related by the change of coordinates. -/
theorem C89_cp_part (h4 : 4 ≤ N) (h5 : N ≠ 5) (h9 : N ≤ 9) (hn : ∀ j, 0 < n j) (hR0 : 0 < R) (hl : 0 < lam) (same same' : Bool)
    (ratio tolInit p : ℝ) {kn kn' : Kern ℝ} (hk : KernOk kn) (hk' : KernOk kn') {srt : List Rel → List ℕ} (hsrt : SortSpec srt)
    {W G W' G' : List (Tensor ℝ)} (hS : Shaped n R V W) (hG : Shaped n R V G) (hS' : Shaped m R V' W') (hG' : Shaped m R V' G')
    (hok : k.Ok n m R) (hd : ∀ j, ∀ r < R, k.d j r ^ 2 = 1)
    (hV : ∀ idx ∈ Spec.Box m, arr V' N idx = k.tensor n (arr V N) idx)
    (hW0 : ∀ j, ∀ x < m j, ∀ r < R, mats W' j x r = k.fac n (mats W) j x r)
    (hG0 : ∀ j, ∀ x < m j, ∀ r < R, mats G' j x r = k.fac n (mats G) j x r) (c : PPCfg) (clock : ℕ → ℝ) (fuel : ℕ) :
    (∃ e, alsCPPart same N R lam ratio tolInit p kn srt V c clock fuel W G = .error e ∧
      alsCPPart same' N R lam ratio tolInit p kn' srt V' c clock fuel W' G' = .error e) ∨
    ∃ r r' ret, alsCPPart same N R lam ratio tolInit p kn srt V c clock fuel W G = .ok (r, ret) ∧
      alsCPPart same' N R lam ratio tolInit p kn' srt V' c clock fuel W' G' = .ok (r', ret) ∧
      r'.iter = r.iter ∧ r'.grad = r.grad ∧ r'.trace = r.trace ∧
      ∀ j, ∀ x < m j, ∀ q < R, mats r'.st.cp.W j x q = k.fac n (mats r.st.cp.W) j x q := by
  have hW : Moved k n m R V V' W W' := ⟨hS, hS', hW0⟩
  have H := ppDriver_sim (part_sim h4 h5 h9 hn hR0 hl same same' ratio tolInit p hk hk' hsrt hok hd hV) { c with tucker := false } clock
    fuel (s := ⟨⟨W, G, W.map zerosLike, [], [], []⟩, [], [], []⟩) (t := ⟨⟨W', G', W'.map zerosLike, [], [], []⟩, [], [], []⟩)
    ⟨hW, ⟨hG, hG', hG0⟩, hW.zeros⟩
  change Alike _ (alsCPPart same N R lam ratio tolInit p kn srt V c clock fuel W G)
    (alsCPPart same' N R lam ratio tolInit p kn' srt V' c clock fuel W' G') at H
  rcases h1 : alsCPPart same N R lam ratio tolInit p kn srt V c clock fuel W G with e | ⟨r, ret⟩ <;>
    rcases h2 : alsCPPart same' N R lam ratio tolInit p kn' srt V' c clock fuel W' G' with e' | ⟨r', ret'⟩ <;> rw [h1, h2] at H
  · exact .inl ⟨e, rfl, congrArg _ H⟩
  · exact H.elim
  · exact H.elim
  · obtain ⟨q2, q3⟩ := H
    simp only at q2 q3
    subst q3
    exact .inr ⟨r, r', _, rfl, rfl, q2.2.1, q2.2.2.1, q2.2.2.2.2, q2.1.1.eq⟩

/-! Non-vacuity: order 4, mode lengths 2, 3, 1, 4, rank 2; exchanging the two columns and the signs of two factors. -/

section Examples

theorem exSwap_rel : ∀ j : Fin 4, ∀ x < ![2, 3, 1, 4] j, ∀ r < 2, mats exSwapW j x r =
    (![fun _ => -1, fun _ => -1, fun _ => 1, fun _ => 1] : Fin 4 → ℕ → ℝ) j r * mats exOnesW j x (Equiv.swap 0 1 r) := by
  intro j x _ r hr
  interval_cases r <;> fin_cases j <;> simp [mats, mat, exSwapW, exOnesW]

theorem exSwap_perm (r : ℕ) : Equiv.swap 0 1 r < 2 ↔ r < 2 := by
  by_cases h0 : r = 0
  · subst h0; simp
  · by_cases h1 : r = 1
    · subst h1; simp
    · rw [Equiv.swap_apply_of_ne_of_ne h0 h1]

/-- The change of coordinates of the examples. -/
noncomputable def exSwapCoord : Spec.Coord 4 := colCoord (Equiv.swap 0 1) ![fun _ => -1, fun _ => -1, fun _ => 1, fun _ => 1] 1

theorem exSwapCoord_ok : exSwapCoord.Ok ![2, 3, 1, 4] ![2, 3, 1, 4] 2 :=
  colCoord_ok exSwap_perm one_ne_zero (by intro r _; simp [Fin.prod_univ_four])

theorem exSwapCoord_sign : ∀ j, ∀ r < 2, exSwapCoord.d j r ^ 2 = 1 := by
  intro j r _
  fin_cases j <;> simp [exSwapCoord, colCoord]

theorem exSwapCoord_fac : ∀ j : Fin 4, ∀ x < ![2, 3, 1, 4] j, ∀ r < 2, mats exSwapW j x r =
    exSwapCoord.fac ![2, 3, 1, 4] (mats exOnesW) j x r := by
  intro j x hx r hr
  rw [exSwap_rel j x hx r hr]
  exact (colCoord_fac _ j hx r).symm

theorem exSwapCoord_tensor : ∀ idx ∈ Spec.Box ![2, 3, 1, 4], arr exVR 4 idx = exSwapCoord.tensor ![2, 3, 1, 4] (arr exVR 4) idx := by
  intro idx h
  exact ((colCoord_tensor _ h).trans (one_mul _)).symm

example : ∃ (k : Kern ℝ) (r r' : LLEnd (Fac ℝ)),
    alsCPDT 4 2 1 (svdSolver k) exVR (exOnesW.map zerosLike) ⟨1 / 1000, 60, 20, 10⟩ (fun _ => 0) 100 ⟨exOnesW, exOnesW⟩ = .ok r ∧
    alsCPDT 4 2 1 (cholSolver k) exVR (exSwapW.map zerosLike) ⟨1 / 1000, 60, 20, 10⟩ (fun _ => 0) 100 ⟨exSwapW, exSwapW⟩ = .ok r' ∧
    r'.rows = r.rows := by
  obtain ⟨k, hk⟩ := exists_kernOk
  obtain ⟨r, r', h1, h2, _, _, h3, _⟩ := C89_cp_dt (N := 4) (n := ![2, 3, 1, 4]) (R := 2) (by norm_num) (by norm_num) (by norm_num)
    (by intro j; fin_cases j <;> norm_num) (by norm_num) one_pos (C12_svd_solver hk) (C12_cholesky_solver hk)
    (zeros_shape exOnesW_shapedR) (zeros_shape exSwap_shaped) (zeros_mats _) (zeros_mats _)
    (f := ⟨exOnesW, exOnesW⟩) (f' := ⟨exSwapW, exSwapW⟩) exOnesW_shapedR exOnesW_shapedR exSwap_shaped exSwap_shaped
    exSwapCoord_ok exSwapCoord_sign exSwapCoord_tensor exSwapCoord_fac exSwapCoord_fac (a := ⟨1 / 1000, 60, 20, 10⟩) (by norm_num)
    (by norm_num) (fun _ => 0) (fuel := 100) (by norm_num)
  exact ⟨k, r, r', h1, h2, h3⟩

example : ∃ (k : Kern ℝ) (r r' : PPRun CPPPState) (ret : Bool),
    alsCPPP true 4 2 1 1 (1 / 10) k exVR ⟨false, 1 / 1000, 60, 20, 10, false⟩ (fun _ => 0) 100 exOnesW exOnesW = .ok (r, ret) ∧
    alsCPPP true 4 2 1 1 (1 / 10) k exVR ⟨false, 1 / 1000, 60, 20, 10, false⟩ (fun _ => 0) 100 exSwapW exSwapW = .ok (r', ret) ∧
    r'.trace = r.trace := by
  obtain ⟨k, hk⟩ := exists_kernOk
  obtain ⟨r, r', ret, h1, h2, _, _, h3, _⟩ := C89_pp_columns (N := 4) (n := ![2, 3, 1, 4]) (R := 2) (by norm_num) (by norm_num)
    (by norm_num) (by intro j; fin_cases j <;> norm_num) (by norm_num) one_pos true 1 (1 / 10) hk hk exOnesW_shapedR
    exOnesW_shapedR exSwap_shaped exSwap_shaped (Equiv.swap 0 1) exSwap_perm
    (![fun _ => -1, fun _ => -1, fun _ => 1, fun _ => 1] : Fin 4 → ℕ → ℝ) (by intro j r; fin_cases j <;> simp)
    (by intro r _; simp [Fin.prod_univ_four]) exSwap_rel exSwap_rel ⟨false, 1 / 1000, 60, 20, 10, false⟩ (by norm_num) (by norm_num)
    (fun _ => 0) (by norm_num) 100 (by norm_num)
  exact ⟨k, r, r', ret, h1, h2, h3⟩

example (k : Kern ℝ) (hk : KernOk k) (srt : List Rel → List ℕ) (hs : SortSpec srt) :=
  C89_cp_part (N := 4) (n := ![2, 3, 1, 4]) (R := 2) (by norm_num) (by norm_num) (by norm_num)
    (by intro j; fin_cases j <;> norm_num) (by norm_num) one_pos true true 1 (1 / 10) (1 / 2) hk hk hs exOnesW_shapedR
    exOnesW_shapedR exSwap_shaped exSwap_shaped exSwapCoord_ok exSwapCoord_sign exSwapCoord_tensor exSwapCoord_fac exSwapCoord_fac

end Examples

end Properties
