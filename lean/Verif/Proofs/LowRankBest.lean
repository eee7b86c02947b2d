import Verif.Proofs.EckartYoung
import Verif.Proofs.Monotone
import Verif.Properties.Solve

/-! The low-rank correction of one mode is the best of its rank. -/

namespace Spec

open Finset

variable {K : Type*} {N : ℕ} [Field K] [LinearOrder K] [IsStrictOrderedRing K]

variable {dims : Fin N → ℕ} {R : ℕ} {V : (Fin N → ℕ) → K} {lam : K}

theorem quad_congr {n R : ℕ} {S M M' Y Y' : ℕ → ℕ → K} (hM : ∀ x < n, ∀ r < R, M x r = M' x r)
    (hY : ∀ x < n, ∀ r < R, Y x r = Y' x r) : quad n R S M Y = quad n R S M' Y' := by
  unfold quad
  congr 1
  · refine sum_congr rfl fun x hx => sum_congr rfl fun r hr => ?_
    rw [mem_range] at hx hr
    rw [hY x hx r hr]
    congr 1
    exact sum_congr rfl fun k hk => by rw [hY x hx k (mem_range.1 hk)]
  · congr 1
    refine sum_congr rfl fun x hx => sum_congr rfl fun r hr => ?_
    rw [mem_range] at hx hr
    rw [hY x hx r hr, hM x hx r hr]

/-- As a function of the factor of mode `i`, the full objective is `quad` plus a constant. -/
theorem fullObj2_quad (W : Fin N → ℕ → ℕ → K) (i : Fin N) : ∃ c, ∀ Y,
    fullObj2 dims R lam V (Function.update W i Y) = quad (dims i) R (normalMat dims R lam W i) (mttkrp dims V W i) Y + c := by
  refine ⟨∑ idx ∈ Box dims, V idx ^ 2 + lam * ∑ j ∈ univ.erase i, frob (dims j) R (W j) (W j), fun Y => ?_⟩
  rw [fullObj2_eq lam _ i]
  have e1 : ∑ j ∈ univ.erase i, frob (dims j) R (Function.update W i Y j) (Function.update W i Y j) =
      ∑ j ∈ univ.erase i, frob (dims j) R (W j) (W j) :=
    sum_congr rfl fun j hj => by rw [Function.update_of_ne (ne_of_mem_erase hj)]
  rw [e1]
  have hch : ∀ idx, recon R (Function.update W i Y) idx = modelChange R W i Y idx := by
    intro idx
    rw [recon_eq_change (W := Function.update W i Y) (i := i)]
    unfold modelChange
    refine sum_congr rfl fun r _ => ?_
    rw [Function.update_self]
    congr 1
    exact prod_congr rfl fun j hj => by rw [Function.update_of_ne (ne_of_mem_erase hj)]
  have e2 : resid2 dims R V (Function.update W i Y) = ∑ idx ∈ Box dims, V idx ^ 2 -
      2 * ∑ idx ∈ Box dims, V idx * modelChange R W i Y idx +
      ∑ idx ∈ Box dims, modelChange R W i Y idx * modelChange R W i Y idx := by
    unfold resid2
    rw [mul_sum, ← sum_sub_distrib, ← sum_add_distrib]
    refine sum_congr rfl fun idx _ => ?_
    rw [hch]; ring
  unfold modeObj2
  rw [e2, tensor_inner, change_inner, Function.update_self]
  unfold quad frob
  have e3 : ∑ x ∈ range (dims i), ∑ r ∈ range R, mttkrp dims V W i x r * Y x r =
      ∑ x ∈ range (dims i), ∑ r ∈ range R, Y x r * mttkrp dims V W i x r :=
    sum_congr rfl fun x _ => sum_congr rfl fun r _ => mul_comm _ _
  have e4 : ∑ x ∈ range (dims i), ∑ r ∈ range R, (∑ k ∈ range R, Y x k * normalMat dims R lam W i k r) * Y x r =
      ∑ x ∈ range (dims i), ∑ r ∈ range R, (∑ k ∈ range R, Y x k * gramExcept dims W i k r) * Y x r +
      lam * ∑ x ∈ range (dims i), ∑ r ∈ range R, Y x r * Y x r := by
    rw [mul_sum, ← sum_add_distrib]
    refine sum_congr rfl fun x _ => ?_
    rw [mul_sum, ← sum_add_distrib]
    refine sum_congr rfl fun r hr => ?_
    have : ∑ k ∈ range R, Y x k * normalMat dims R lam W i k r =
        ∑ k ∈ range R, Y x k * gramExcept dims W i k r + Y x r * lam := by
      have e : ∀ k ∈ range R, Y x k * normalMat dims R lam W i k r = Y x k * (gramExcept dims W i k r + if k = r then lam else 0) := by
        intro k hk
        unfold normalMat
        rw [clip_of (mem_range.1 hk) (mem_range.1 hr)]
      rw [sum_congr rfl e]
      simp only [mul_add, sum_add_distrib, mul_ite, mul_zero, sum_ite_eq', if_pos hr]
    rw [this]; ring
  rw [e3, e4]
  ring

/-- A low-rank update with a best routine is at least as good as any other modification of the same rank. -/
theorem lrUpdate_best (hl : 0 < lam) {q : ℕ} {lr : LowRank K} (h : LRBest q lr) (A : ℕ → ℕ → K) (st : AlsState N K) (i : Fin N)
    (hd : 0 < dims i) (hq : q ≤ dims i) (hR : q ≤ R) (P Q : ℕ → ℕ → K) :
    fullObj2 dims R lam V (lrUpdate dims R lam q lr V A st i).W ≤
      fullObj2 dims R lam V (Function.update st.W i fun x r => A x r + ∑ k ∈ range q, P x k * Q k r) := by
  obtain ⟨c, hc⟩ := fullObj2_quad (dims := dims) (R := R) (lam := lam) (V := V) st.W i
  unfold lrUpdate
  simp only [hc]
  have := h (dims i) R (clip (dims i) R (mttkrp dims V st.W i)) (clip (dims i) R A) _ hq hR
    (normalMat_posDef (W := st.W) (i := i) hl hd) P Q
  refine add_le_add ?_ (le_refl c)
  refine (le_of_eq ?_).trans (this.trans (le_of_eq ?_))
  · exact quad_congr (fun x hx r hr => (clip_of hx hr).symm) fun x hx r hr => by rw [clip_of hx hr, clip_of hx hr]
  · exact quad_congr (fun x hx r hr => clip_of hx hr) fun x hx r hr => by rw [clip_of hx hr]

theorem lrUpdate_descends (hl : 0 < lam) {q : ℕ} {lr : LowRank K} (h : LRDescends q lr) (A : ℕ → ℕ → K) (st : AlsState N K) (i : Fin N)
    (hd : 0 < dims i) (hq : q ≤ dims i) (hR : q ≤ R) :
    fullObj2 dims R lam V (lrUpdate dims R lam q lr V A st i).W ≤ fullObj2 dims R lam V (Function.update st.W i A) := by
  obtain ⟨c, hc⟩ := fullObj2_quad (dims := dims) (R := R) (lam := lam) (V := V) st.W i
  unfold lrUpdate
  simp only [hc]
  have := h (dims i) R (clip (dims i) R (mttkrp dims V st.W i)) (clip (dims i) R A) _ hq hR
    (normalMat_posDef (W := st.W) (i := i) hl hd)
  refine add_le_add ?_ (le_refl c)
  refine (le_of_eq ?_).trans (this.trans (le_of_eq ?_))
  · exact quad_congr (fun x hx r hr => (clip_of hx hr).symm) fun x hx r hr => by rw [clip_of hx hr, clip_of hx hr]
  · exact quad_congr (fun x hx r hr => clip_of hx hr) fun x hx r hr => clip_of hx hr

omit [IsStrictOrderedRing K] in
theorem LRBest.descends {q : ℕ} {lr : LowRank K} (h : LRBest q lr) : LRDescends q lr := by
  intro n R M A S hn hR hS
  have := h n R M A S hn hR hS (fun _ _ => 0) (fun _ _ => 0)
  simpa using this

/-- A sequence of solves and low-rank corrections of the current factors does not increase the objective. -/
theorem lrRun_mono (hl : 0 < lam) {solve : Solver K} (hs : SolvesPosDef solve) {q : ℕ} {lr : LowRank K} (h : LRDescends q lr)
    (hd : ∀ j, 0 < dims j) (hq : ∀ j, q ≤ dims j) (hR : q ≤ R) (ops : List (Fin N × Bool)) (st : AlsState N K) :
    fullObj2 dims R lam V (lrRun dims R lam solve q lr V (fun st => st.W) ops st).W ≤ fullObj2 dims R lam V st.W := by
  induction ops generalizing st with
  | nil => exact le_refl _
  | cons op l ih =>
    refine (ih _).trans ?_
    obtain ⟨i, b⟩ := op
    cases b
    · exact fullObj2_update_le hl.le (alsFactor_solves (Or.inr ⟨hl, hs⟩) st.W i)
    · have := lrUpdate_descends (V := V) hl h (st.W i) st i (hd i) (hq i) hR
      rwa [Function.update_eq_self] at this

end Spec

namespace Model

open Finset Matrix EckartYoung

/-- The result of the truncated singular value decomposition of `X` to rank `q`: the `q` leading triples of a thin singular
value decomposition. -/
structure TruncSvd (n R q : ℕ) (u : LR ℝ) (X : Matrix (Fin n) (Fin R) ℝ) : Prop where
  shape : LRShape u n q R
  full : ∃ (hq : q ≤ min n R) (P : Matrix (Fin n) (Fin (min n R)) ℝ) (σ : Fin (min n R) → ℝ) (Q : Matrix (Fin R) (Fin (min n R)) ℝ),
    Svd X P σ Q ∧ toM n q u.U = cols hq P ∧ toV q u.s = (fun a => σ (Fin.castLE hq a)) ∧ toM q R u.VT = (cols hq Q)ᵀ

/-- Contract of CTF's `svd(U, s, VT, q)` for `q ≤ min(nrow, ncol)`. -/
def SvdTruncates (k : Kern ℝ) : Prop := ∀ (n R q : ℕ) (X : Tensor ℝ), X.lens = [n, R] → q ≤ min n R →
  TruncSvd n R q (k.svd X q) (toM n R X)

/-- Contract of CTF's `qr` for matrices with at least as many rows as columns. -/
def QrOrth (k : Kern ℝ) : Prop := ∀ (n r : ℕ) (X : Tensor ℝ), X.lens = [n, r] → r ≤ n → QrSpec n r (k.qr X)

theorem TruncSvd.usv {n R q : ℕ} {u : LR ℝ} {X : Matrix (Fin n) (Fin R) ℝ} (h : TruncSvd n R q u X) :
    ∃ (hq : q ≤ min n R) (P : Matrix (Fin n) (Fin (min n R)) ℝ) (σ : Fin (min n R) → ℝ) (Q : Matrix (Fin R) (Fin (min n R)) ℝ),
      Svd X P σ Q ∧ Model.usv n q R u = lead hq P σ Q := by
  obtain ⟨hq, P, σ, Q, hS, h1, h2, h3⟩ := h.full
  exact ⟨hq, P, σ, Q, hS, by unfold Model.usv lead; rw [h1, h2, h3]⟩

theorem TruncSvd.best {n R q : ℕ} {u : LR ℝ} {X : Matrix (Fin n) (Fin R) ℝ} (h : TruncSvd n R q u X)
    (A : Matrix (Fin n) (Fin q) ℝ) (B : Matrix (Fin q) (Fin R) ℝ) : fsq (X - Model.usv n q R u) ≤ fsq (X - A * B) := by
  obtain ⟨hq, P, σ, Q, hS, e⟩ := h.usv
  rw [e]
  exact EckartYoung.best hS hq A B

theorem lead_all {n R p q : ℕ} (hq : q ≤ p) (hp : p ≤ q) {X : Matrix (Fin n) (Fin R) ℝ} {P : Matrix (Fin n) (Fin p) ℝ}
    {σ : Fin p → ℝ} {Q : Matrix (Fin R) (Fin p) ℝ} (h : Svd X P σ Q) : lead hq P σ Q = X := by
  obtain rfl : q = p := le_antisymm hq hp
  exact h.prod.symm

/-- Truncation to full rank is exact. -/
theorem TruncSvd.exact {n R q : ℕ} {u : LR ℝ} {X : Matrix (Fin n) (Fin R) ℝ} (h : TruncSvd n R q u X) (hq : min n R ≤ q) :
    Model.usv n q R u = X := by
  obtain ⟨hq', P, σ, Q, hS, e⟩ := h.usv
  rw [e]
  exact lead_all hq' hq hS

/-- The contract implies the one used by `SVD_solve`. -/
theorem TruncSvd.svdSpec {R : ℕ} {u : LR ℝ} {S : Tensor ℝ} (h : TruncSvd R R R u (toM R R S)) : SvdSpec R u S := by
  have hex := h.exact (by simp)
  obtain ⟨hq, P, σ, Q, hS, h1, h2, h3⟩ := h.full
  refine ⟨h.shape, ?_, ?_, ?_⟩
  · intro a ha b hb
    have := congrFun (congrFun hex ⟨a, ha⟩) ⟨b, hb⟩
    unfold Model.usv at this
    rw [Matrix.mul_apply] at this
    rw [sum_range]
    refine Eq.trans (sum_congr rfl fun k _ => ?_) this
    rw [Matrix.mul_diagonal]; rfl
  · intro a ha b hb
    have := congrFun (congrFun (cols_orth hq hS.left) ⟨a, ha⟩) ⟨b, hb⟩
    rw [← h1, Matrix.mul_apply, Matrix.one_apply] at this
    rw [sum_range]
    simp only [Fin.mk.injEq] at this
    exact this
  · intro a ha b hb
    have := congrFun (congrFun (cols_orth hq hS.right) ⟨a, ha⟩) ⟨b, hb⟩
    have e : cols hq Q = (toM R R u.VT)ᵀ := by rw [h3, transpose_transpose]
    rw [e, Matrix.mul_apply, Matrix.one_apply] at this
    rw [sum_range]
    simp only [Fin.mk.injEq] at this
    exact this

end Model

namespace Properties

open Model Finset Matrix EckartYoung

/-- The contract of the dense kernels used by the low-rank optimizers. -/
structure LRKernOk (k : Kern ℝ) : Prop where
  base : KernOk k
  trunc : SvdTruncates k
  qr : QrOrth k

/-- The contract is satisfiable. -/
theorem exists_lrKernOk : ∃ k : Kern ℝ, LRKernOk k := by
  classical
  obtain ⟨k, hk⟩ := exists_kernOk
  let svd : Tensor ℝ → ℕ → LR ℝ := fun X q =>
    if h : ∃ u, TruncSvd (nrow X) (ncol X) q u (toM (nrow X) (ncol X) X) then h.choose else k.svd X q
  let qr : Tensor ℝ → Tensor ℝ := fun X =>
    if h : ∃ Q, QrSpec (nrow X) (ncol X) Q then h.choose else X
  have htr : ∀ (n R q : ℕ) (X : Tensor ℝ), X.lens = [n, R] → q ≤ min n R → TruncSvd n R q (svd X q) (toM n R X) := by
    intro n R q X hX hq
    have hex : ∃ u, TruncSvd (nrow X) (ncol X) q u (toM (nrow X) (ncol X) X) := by
      have e1 : nrow X = n := by simp [nrow, hX]
      have e2 : ncol X = R := by simp [ncol, hX]
      rw [e1, e2]
      obtain ⟨P, σ, Q, hS⟩ := exists_thin (toM n R X)
      refine ⟨⟨ofFinMat (cols hq P), ⟨[q], fun idx => match idx with
        | [a] => if h : a < q then σ (Fin.castLE hq ⟨a, h⟩) else 0
        | _ => 0⟩, ofFinMat (cols hq Q)ᵀ⟩, ⟨rfl, rfl, rfl⟩, hq, P, σ, Q, hS, ?_, ?_, ?_⟩
      · funext a b; exact mat_ofFinMat _ a.2 b.2
      · funext a; simp [toV]
      · funext a b; exact mat_ofFinMat _ a.2 b.2
    have e : svd X q = hex.choose := by simp only [svd, dif_pos hex]
    rw [e]
    have hc := hex.choose_spec
    generalize hex.choose = u at hc
    rwa [show nrow X = n by simp [nrow, hX], show ncol X = R by simp [ncol, hX]] at hc
  refine ⟨⟨k.chol, k.tri, svd, qr⟩, ⟨hk.tri, hk.chol, ?_⟩, htr, ?_⟩
  · intro R S hS _
    exact (htr R R R S hS (by simp)).svdSpec
  · intro n r X hX hr
    have hex : ∃ Q, QrSpec (K := ℝ) (nrow X) (ncol X) Q := by
      have e1 : nrow X = n := by simp [nrow, hX]
      have e2 : ncol X = r := by simp [ncol, hX]
      rw [e1, e2]
      refine ⟨ofFinMat (cols hr (1 : Matrix (Fin n) (Fin n) ℝ)), rfl, ?_⟩
      have e : toM n r (ofFinMat (cols hr (1 : Matrix (Fin n) (Fin n) ℝ))) = cols hr 1 := by
        funext a b; exact mat_ofFinMat _ a.2 b.2
      rw [e]
      exact cols_orth hr (by simp)
    have e : qr X = hex.choose := by simp only [qr, dif_pos hex]
    change QrSpec n r (qr X)
    rw [e]
    have hc := hex.choose_spec
    generalize hex.choose = u at hc
    rwa [show nrow X = n by simp [nrow, hX], show ncol X = r by simp [ncol, hX]] at hc

/-- `Spec.quad` in matrix form. -/
theorem quad_eq {n R : ℕ} {S M Y : ℕ → ℕ → ℝ} :
    Spec.quad n R S M Y = quadObj (Matrix.of fun a b : Fin R => S a b) (Matrix.of fun (x : Fin n) (r : Fin R) => M x r)
      (Matrix.of fun (x : Fin n) (r : Fin R) => Y x r) := by
  unfold Spec.quad quadObj
  rw [Matrix.trace, Matrix.trace]
  congr 1
  · rw [sum_range]
    refine sum_congr rfl fun x _ => ?_
    rw [sum_range, Matrix.diag_apply, Matrix.mul_apply]
    refine sum_congr rfl fun r _ => ?_
    rw [sum_range]
    rfl
  · congr 1
    rw [sum_range]
    refine sum_congr rfl fun x _ => ?_
    rw [sum_range, Matrix.diag_apply, Matrix.mul_apply]
    rfl

/-- The correction in matrix form. -/
theorem lrProd_of {n q R : ℕ} {u : LR ℝ} {A : ℕ → ℕ → ℝ} :
    (Matrix.of fun (x : Fin n) (r : Fin R) => A x r + Spec.lrProd q (mat u.U, fun a => u.s.val [a], mat u.VT) x r) =
      toM n R (ofMat n R A) + usv n q R u := by
  rw [toM_ofMat]
  funext x r
  have : usv n q R u x r = ∑ a : Fin q, mat u.U x a * u.s.val [a.1] * mat u.VT a r := by
    unfold usv
    rw [Matrix.mul_apply]
    exact sum_congr rfl fun a _ => by rw [Matrix.mul_diagonal]; rfl
  change A x r + Spec.lrProd q (mat u.U, fun a => u.s.val [a], mat u.VT) x r = A x r + usv n q R u x r
  rw [this, Spec.lrProd, sum_range]

theorem posDef_ofMat' {R : ℕ} {S : ℕ → ℕ → ℝ} (h : Spec.PosDef R S) : Spec.PosDef R (mat (ofMat R R S)) := posDef_ofMat h

end Properties
