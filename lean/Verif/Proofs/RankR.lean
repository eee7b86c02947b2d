import Verif.Proofs.Solve
import Mathlib.LinearAlgebra.Matrix.Block

namespace Model

open Finset Matrix

variable {K : Type} [Field K]

theorem LowerTri.isUnit {R : ℕ} {L : Tensor K} (h : LowerTri R L) : IsUnit (toM R R L).det := by
  rw [Matrix.det_of_lowerTriangular (toM R R L) (fun a b hab => h.low a.1 a.2 b.1 b.2 hab)]
  rw [isUnit_iff_ne_zero, Finset.prod_ne_zero_iff]
  exact fun a _ => h.diag a.1 a.2

theorem LowerTri.cancelT {n R : ℕ} {L : Tensor K} (h : LowerTri R L) {X Y : Matrix (Fin n) (Fin R) K}
    (e : X * (toM R R L)ᵀ = Y * (toM R R L)ᵀ) : X = Y := by
  have hu : IsUnit (toM R R L)ᵀ.det := by rw [det_transpose]; exact h.isUnit
  have := congrArg (· * ((toM R R L)ᵀ)⁻¹) e
  simpa only [Matrix.mul_assoc, Matrix.mul_nonsing_inv _ hu, Matrix.mul_one] using this

theorem matrixDot_ok {A B : Tensor K} {n m R : ℕ} (hA : A.lens = [n, m]) (hB : B.lens = [m, R]) :
    ∃ T, matrixDot A B = .ok T ∧ T.lens = [n, R] ∧ toM n R T = toM n m A * toM m R B := by
  obtain ⟨T, h1, _, h3, h4⟩ := einsum_mul hA hB
  refine ⟨T, ?_, h3, h4⟩
  unfold matrixDot
  simpa [nrow, ncol, hA, hB] using h1

theorem zipT_sub {A B : Tensor K} {n R : ℕ} (hA : A.lens = [n, R]) (hB : B.lens = [n, R]) :
    ∃ T, zipT (· - ·) A B = .ok T ∧ T.lens = [n, R] ∧ toM n R T = toM n R A - toM n R B := by
  obtain ⟨T, h1, _, h3, h4⟩ := zipT_ok (· - ·) (A := A) (B := B) (by rw [hA, hB])
  refine ⟨T, h1, by rw [h3, hA], ?_⟩
  funext a b
  exact h4 _ (by rw [hA]; exact fits_two.2 ⟨a.2, b.2⟩)

/-- The product `U diag(s) VT` denoted by a triple. -/
def usv (n q R : ℕ) (u : LR K) : Matrix (Fin n) (Fin R) K :=
  toM n q u.U * diagonal (toV q u.s) * toM q R u.VT

/-- Effect of `get_rankR_update_cholesky` up to the decomposition of `X`. -/
theorem rankRUpdate_ok {k : Kern K} (htri : TriSpec k.tri) {n q R : ℕ} {X0 M A gamma : Tensor K}
    (hM : M.lens = [n, R]) (hA : A.lens = [n, R]) (hg : gamma.lens = [R, R])
    (hL : CholSpec R (k.chol gamma) gamma) (random : Bool)
    (hdec : ∀ X : Tensor K, X.lens = [n, R] → ∃ u,
      (if random then randomizedSvd k X0 X q 1 else Except.ok (k.svd X q)) = .ok u ∧ LRShape u n q R) :
    ∃ (X : Tensor K) (u u' : LR K), X.lens = [n, R] ∧
      toM n R X * (toM R R (k.chol gamma))ᵀ = toM n R M - toM n R A * toM R R gamma ∧
      (if random then randomizedSvd k X0 X q 1 else Except.ok (k.svd X q)) = .ok u ∧
      LRShape u n q R ∧ rankRUpdate k X0 q M A gamma random = .ok u' ∧ LRShape u' n q R ∧
      usv n q R u' * toM R R (k.chol gamma) = usv n q R u := by
  obtain ⟨P, p1, p2, p3⟩ := matrixDot_ok hA hg
  obtain ⟨D, d1, d2, d3⟩ := zipT_sub hM p2
  obtain ⟨x1, x2⟩ := htri.transp d2 hL.tri
  obtain ⟨u, u1, u2⟩ := hdec _ x1
  obtain ⟨v1, v2⟩ := htri.plain u2.VT hL.tri
  refine ⟨_, u, { u with VT := k.tri u.VT (k.chol gamma) true false false }, x1, by rw [x2, d3, p3], u1, u2, ?_,
    ⟨u2.U, u2.s, v1⟩, ?_⟩
  · unfold rankRUpdate
    simp only [p1, d1, bind, Except.bind]
    cases random
    · simp only [Bool.false_eq_true, if_false, pure, Except.pure] at u1 ⊢
      cases u1
      rfl
    · simp only [if_true] at u1 ⊢
      rw [u1]
      rfl
  · unfold usv
    simp only [Matrix.mul_assoc, v2]

/-- The residual of the normal equations after a rank-`q` update. -/
theorem rankR_residual {n q R : ℕ} {L gamma X M A : Tensor K} (hL : CholSpec R L gamma)
    (hX : toM n R X * (toM R R L)ᵀ = toM n R M - toM n R A * toM R R gamma)
    (D : Matrix (Fin n) (Fin R) K) :
    toM n R M - (toM n R A + D) * toM R R gamma =
      (toM n R X - D * toM R R L) * (toM R R L)ᵀ := by
  rw [Matrix.sub_mul, hX, ← hL.toM, Matrix.mul_assoc D, Matrix.add_mul]
  abel

/-- Orthonormal columns. -/
def QrSpec (n r : ℕ) (Q : Tensor K) : Prop :=
  Q.lens = [n, r] ∧ (toM n r Q)ᵀ * toM n r Q = 1

/-- `X["jr"] = A["ij"]*A["il"]*Q["lr"]` has a value of the declared shape. -/
theorem einsum_power {A Q : Tensor K} {m n r : ℕ} (hA : A.lens = [m, n]) (hQ : Q.lens = [n, r]) :
    ∃ T, einsum [n, r] [lj, 114] [(A, [li, lj]), (A, [li, 108]), (Q, [108, 114])] = .ok T ∧
      T.lens = [n, r] := by
  let d : Label → ℕ := fun l => if l = li then m else if l = 114 then r else n
  obtain ⟨T, e1, _, e2⟩ := einsum_rep (K := K) (d := d) (sc := [lj, 114])
    (ops := [(A, [li, lj]), (A, [li, 108]), (Q, [108, 114])]) (by simp [hA, hQ, d, li, lj])
  exact ⟨T, by simpa [d, li, lj] using e1, by simpa [d, li, lj] using e2.1⟩

/-- `randomized_svd` returns a factorisation of `A Q Qᵀ` for a `Q` with orthonormal columns. -/
theorem randomizedSvd_ok {k : Kern K} {X0 A : Tensor K} {m n r : ℕ} (hA : A.lens = [m, n])
    (hX0 : X0.lens = [n, r]) (hqr : ∀ X : Tensor K, X.lens = [n, r] → QrSpec n r (k.qr X))
    (hsvd : ∀ B : Tensor K, B.lens = [m, r] → LRShape (k.svd B r) m r r ∧ usv m r r (k.svd B r) = toM m r B)
    (iter : ℕ) :
    ∃ u Q, randomizedSvd k X0 A r iter = .ok u ∧ LRShape u m r n ∧ QrSpec n r Q ∧
      usv m r n u = toM m n A * (toM n r Q * (toM n r Q)ᵀ) := by
  have hncol : ncol A = n := by simp [ncol, hA]
  have hnrow : nrow A = m := by simp [nrow, hA]
  have hloop : ∀ l : List ℕ, ∀ Q0 : Tensor K, QrSpec n r Q0 → ∃ Q, l.foldlM (fun Q _ => do
      let X ← einsum [n, r] [lj, 114] [(A, [li, lj]), (A, [li, 108]), (Q, [108, 114])]
      pure (k.qr X)) Q0 = Except.ok (ε := Fault) Q ∧ QrSpec n r Q := by
    intro l
    induction l with
    | nil => intro Q0 h0; exact ⟨Q0, rfl, h0⟩
    | cons a l ih =>
      intro Q0 h0
      obtain ⟨X, x1, x2⟩ := einsum_power hA h0.1
      obtain ⟨Q, q1, q2⟩ := ih (k.qr X) (hqr X x2)
      refine ⟨Q, ?_, q2⟩
      rw [List.foldlM_cons]
      simp only [x1, bind, Except.bind, pure, Except.pure] at q1 ⊢
      exact q1
  obtain ⟨Q, q1, q2⟩ := hloop (List.range iter) (k.qr X0) (hqr X0 hX0)
  obtain ⟨B, b1, b2, b3, b4⟩ := einsum_mul hA q2.1
  obtain ⟨s1, s2⟩ := hsvd B b3
  obtain ⟨VT, v1, v2, v3, v4⟩ := einsum_mulT s1.VT q2.1
  refine ⟨{ k.svd B r with VT := VT }, Q, ?_, ⟨s1.U, s1.s, v3⟩, q2, ?_⟩
  · unfold randomizedSvd
    simp only [hncol, hnrow]
    rw [q1]
    simp only [bind, Except.bind, b1, v1]
    rfl
  · unfold usv at s2 ⊢
    simp only [v4]
    rw [← Matrix.mul_assoc, s2, b4, Matrix.mul_assoc]

end Model
