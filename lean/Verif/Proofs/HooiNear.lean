import Verif.Proofs.RoundTuckerSweep
import Verif.Proofs.RoundTuckerPP
import Verif.Proofs.HooiSweep
import Verif.Proofs.KyFanNear

/-! Tucker updates with rounded Gram matrices are almost optimal. -/

namespace Model

open Finset Function
open scoped Matrix

variable {N : ℕ}

/-- Backward-stable SVD: for every square matrix the returned left factor belongs to an exact decomposition of a matrix whose
entries differ from the given one by at most `eta` times the sum of its absolute values (in the sum over all entries). -/
def SvdBack (eta : ℝ) (k : Kern ℝ) : Prop := ∀ (n r : ℕ) (M : Tensor ℝ), M.lens = [n, n] → r ≤ n →
  ∃ M' : Tensor ℝ, SvdTrunc n r (k.svd M r) M' ∧
    ∑ x ∈ range n, ∑ y ∈ range n, |mat M' x y - mat M x y| ≤ eta * ∑ x ∈ range n, ∑ y ∈ range n, |mat M x y|

/-- An exact SVD exists for every matrix. -/
theorem exists_svdBack : ∃ k : Kern ℝ, SvdBack 0 k ∧ SvdLeading k ∧ SvdShape k := by
  classical
  have hex : ∀ (n r : ℕ) (M : Tensor ℝ), ∃ u, SvdTrunc n r u M := by
    intro n r M
    obtain ⟨P, σ, Q, hS⟩ := EckartYoung.exists_wide le_rfl (toM n n M)
    refine ⟨⟨ofMat n r fun x a => if h : x < n ∧ a < n then P ⟨x, h.1⟩ ⟨a, h.2⟩ else 0, ⟨[r], fun _ => 0⟩,
      ⟨[r, n], fun _ => 0⟩⟩, rfl, P, Q, σ, hS.left, hS.right, hS.anti, hS.nonneg, hS.prod, ?_⟩
    intro x a hx hxa har
    simp [mat, ofMat, Spec.clip, hx, har, hxa]
  refine ⟨⟨id, fun B _ _ _ _ => B, fun M r => (hex (nrow M) r M).choose, id⟩, ?_, ?_, ?_⟩
  · intro n r M hM hr
    refine ⟨M, ?_, by simp⟩
    have := (hex (nrow M) r M).choose_spec
    simp only
    rw [nrow_of hM] at this ⊢
    exact this
  · intro n r M hM hr _
    have := (hex (nrow M) r M).choose_spec
    simp only
    rw [nrow_of hM] at this ⊢
    exact this
  · intro M n r hM hr
    have := (hex (nrow M) r M).choose_spec.lens
    simp only
    rw [nrow_of hM] at this ⊢
    exact this

theorem SvdBack.shape {eta : ℝ} {k : Kern ℝ} (h : SvdBack eta k) : SvdShape k := by
  intro M n r hM hr
  obtain ⟨M', h1, _⟩ := h n r M hM hr
  exact h1.lens

theorem SvdTrunc.orth {n r : ℕ} {u : LR ℝ} {M : Tensor ℝ} (h : SvdTrunc n r u M) (hr : r ≤ n) : Spec.Orthonormal n r (mat u.U) := by
  obtain ⟨P, Q, σ, hP, hQ, ha, h0, hm, hU⟩ := h.full
  have e : (Matrix.of fun (x : Fin n) (a : Fin r) => mat u.U x a) = KyFan.firstCols hr P := by
    ext x a
    exact hU x.1 a.1 x.2 (by omega) a.2
  rw [orthonormal_iff, e]
  exact KyFan.firstCols_orth hr hP

/-- Near-optimality in terms of entries. -/
theorem SvdTrunc.near {n r : ℕ} {u : LR ℝ} {M G : Tensor ℝ} (h : SvdTrunc n r u M) (hr : r ≤ n)
    (hG : (toM n n G).PosSemidef) {δ : ℝ} (hδ : ∑ x ∈ range n, ∑ y ∈ range n, |mat M x y - mat G x y| ≤ δ)
    {B : ℕ → ℕ → ℝ} (hB : Spec.Orthonormal n r B) :
    ∑ a ∈ range r, ∑ x ∈ range n, ∑ y ∈ range n, B x a * mat G x y * B y a ≤
      ∑ a ∈ range r, ∑ x ∈ range n, ∑ y ∈ range n, mat u.U x a * mat G x y * mat u.U y a + 4 * δ := by
  obtain ⟨P, Q, σ, hP, hQ, ha, h0, hm, hU⟩ := h.full
  have e : (Matrix.of fun (x : Fin n) (a : Fin r) => mat u.U x a) = KyFan.firstCols hr P := by
    ext x a
    exact hU x.1 a.1 x.2 (by omega) a.2
  rw [← trace_eq, ← trace_eq, e]
  refine KyFan.near_best hP hQ ha h0 hm hr hG ?_ (orthonormal_iff.1 hB)
  refine le_trans (le_of_eq ?_) hδ
  rw [sum_range]
  refine sum_congr rfl fun x _ => ?_
  rw [sum_range]
  rfl

/-- Sum of all entries of the Gram matrix of the absolute values. -/
noncomputable def gramMass (dims rk : Fin N → ℕ) (V : (Fin N → ℕ) → ℝ) (W : Fin N → ℕ → ℕ → ℝ) (i : Fin N) : ℝ :=
  ∑ x ∈ range (dims i), ∑ y ∈ range (dims i), Spec.unfoldGram (Spec.ttmShape dims rk {i})
    (Spec.multiTTM dims (Spec.absArr V) (Spec.absMats W) {i}) i x y

theorem abs_unfoldGram_le {lens : Fin N → ℕ} {g gA : (Fin N → ℕ) → ℝ} {i : Fin N} {x y : ℕ} (h : ∀ z, |g z| ≤ gA z) :
    |Spec.unfoldGram lens g i x y| ≤ Spec.unfoldGram lens gA i x y := by
  unfold Spec.unfoldGram
  refine (abs_sum_le_sum_abs _ _).trans (sum_le_sum fun z _ => ?_)
  rw [abs_mul]
  exact mul_le_mul (h _) (h _) (abs_nonneg _) ((abs_nonneg _).trans (h _))

/-- A mode update from a rounded Gram matrix. -/
theorem HooiNear.best {cG eta : ℝ} (hc : 1 ≤ cG) (he : 0 ≤ eta) {k : Kern ℝ} (hk : SvdBack eta k) {dims rk : Fin N → ℕ} (hr : ∀ j, rk j ≤ dims j)
    {V : Tensor ℝ} {W W' : List (Tensor ℝ)} {i : Fin N} (hl : W.length = N) (h : HooiNear cG k dims rk V W W' i) :
    (∀ j, j ≠ i → mats (N := N) W' j = mats W j) ∧ Spec.Orthonormal (dims i) (rk i) (mats W' i) ∧
    ∀ B, Spec.Orthonormal (dims i) (rk i) B → coreSq dims rk V (update (mats W) i B) ≤
      coreSq dims rk V (mats W') + 4 * ((cG * (1 + eta) - 1) * gramMass dims rk (arr V N) (mats W) i) := by
  obtain ⟨M, m1, rfl⟩ := h
  have hi : klens dims rk {i} i = dims i := by simp [klens]
  unfold GramNear at m1
  rw [hi] at m1
  obtain ⟨m1, m2⟩ := m1
  obtain ⟨M', t1, t2⟩ := hk (dims i) (rk i) M m1 (hr i)
  set g := Spec.multiTTM dims (arr V N) (mats W) {i} with hg
  set gA := Spec.multiTTM dims (Spec.absArr (arr V N)) (Spec.absMats (mats W)) {i} with hgA
  let G : Tensor ℝ := ofMat (dims i) (dims i) fun x y => Spec.unfoldGram (klens dims rk {i}) g i x y
  have hGm : ∀ x < dims i, ∀ y < dims i, mat G x y = Spec.unfoldGram (klens dims rk {i}) g i x y := by
    intro x hx y hy
    simp [G, mat, ofMat, Spec.clip, hx, hy]
  have hp : (toM (dims i) (dims i) G).PosSemidef := by
    have := unfoldGram_posSemidef (klens dims rk {i}) g i (M := G)
    rw [hi] at this
    exact this hGm
  have hself := mats_set_self hl (k.svd M (rk i)).U (i := i)
  have hne : ∀ j, j ≠ i → mats (N := N) (W.set i.1 (k.svd M (rk i)).U) j = mats W j := fun j hj => mats_set_ne _ hj
  refine ⟨hne, by rw [hself]; exact t1.orth (hr i), fun B hB => ?_⟩
  have hGA : ∀ x y, |Spec.unfoldGram (klens dims rk {i}) g i x y| ≤ Spec.unfoldGram (klens dims rk {i}) gA i x y :=
    fun x y => abs_unfoldGram_le fun z => abs_multiTTM_le _ _ _ _ _
  have hmass : gramMass dims rk (arr V N) (mats W) i = ∑ x ∈ range (dims i), ∑ y ∈ range (dims i),
      Spec.unfoldGram (klens dims rk {i}) gA i x y := rfl
  have s1 : ∑ x ∈ range (dims i), ∑ y ∈ range (dims i), |mat M x y - mat G x y| ≤ (cG - 1) * gramMass dims rk (arr V N) (mats W) i := by
    rw [hmass, mul_sum]
    refine sum_le_sum fun x hx => ?_
    rw [mul_sum]
    refine sum_le_sum fun y hy => ?_
    rw [hGm x (mem_range.1 hx) y (mem_range.1 hy)]
    exact m2 x (mem_range.1 hx) y (mem_range.1 hy)
  have s2 : ∑ x ∈ range (dims i), ∑ y ∈ range (dims i), |mat M x y| ≤ cG * gramMass dims rk (arr V N) (mats W) i := by
    rw [hmass, mul_sum]
    refine sum_le_sum fun x hx => ?_
    rw [mul_sum]
    refine sum_le_sum fun y hy => ?_
    have a1 := m2 x (mem_range.1 hx) y (mem_range.1 hy)
    have a2 := hGA x y
    have a3 := abs_add_le (mat M x y - Spec.unfoldGram (klens dims rk {i}) g i x y) (Spec.unfoldGram (klens dims rk {i}) g i x y)
    rw [sub_add_cancel] at a3
    linarith
  have s3 : ∑ x ∈ range (dims i), ∑ y ∈ range (dims i), |mat M' x y - mat G x y| ≤
      (cG * (1 + eta) - 1) * gramMass dims rk (arr V N) (mats W) i := by
    have : ∑ x ∈ range (dims i), ∑ y ∈ range (dims i), |mat M' x y - mat G x y| ≤
        ∑ x ∈ range (dims i), ∑ y ∈ range (dims i), |mat M' x y - mat M x y| +
          ∑ x ∈ range (dims i), ∑ y ∈ range (dims i), |mat M x y - mat G x y| := by
      rw [← sum_add_distrib]
      refine sum_le_sum fun x _ => ?_
      rw [← sum_add_distrib]
      exact sum_le_sum fun y _ => abs_sub_le _ _ _
    have := mul_le_mul_of_nonneg_left s2 he
    nlinarith
  have hb := t1.near (hr i) hp s3 hB
  have e1 : Spec.multiTTM dims (arr V N) (mats (W.set i.1 (k.svd M (rk i)).U)) {i} = g := multiTTM_single_congr hne
  have e2 : Spec.multiTTM dims (arr V N) (update (mats W) i B) {i} = g :=
    multiTTM_single_congr fun j hj => by rw [update_of_ne hj]
  unfold coreSq
  rw [core_norm_eq _ i, core_norm_eq (mats _) i, hself, e1, e2, update_self]
  refine le_trans (le_of_eq ?_) (hb.trans (le_of_eq ?_))
  · refine sum_congr rfl fun a _ => sum_congr rfl fun x hx => sum_congr rfl fun y hy => ?_
    rw [hGm x (mem_range.1 hx) y (mem_range.1 hy)]
    rfl
  · congr 1
    refine sum_congr rfl fun a _ => sum_congr rfl fun x hx => sum_congr rfl fun y hy => ?_
    rw [hGm x (mem_range.1 hx) y (mem_range.1 hy)]
    rfl

/-! ### a bound that does not depend on the factors -/

theorem orth_entry_le {n r : ℕ} {W : ℕ → ℕ → ℝ} (h : Spec.Orthonormal n r W) {x a : ℕ} (hx : x < n) (ha : a < r) : |W x a| ≤ 1 := by
  have h1 := h a ha a ha
  rw [if_pos rfl] at h1
  unfold Spec.gram at h1
  have h2 : W x a * W x a ≤ 1 := by
    rw [← h1]
    exact Finset.single_le_sum (f := fun x => W x a * W x a) (fun y _ => mul_self_nonneg _) (mem_range.2 hx)
  rw [← sq] at h2
  exact abs_le_one_iff_mul_self_le_one.2 (by nlinarith)

theorem gramMass_le {dims rk : Fin N → ℕ} (V : (Fin N → ℕ) → ℝ) {W : Fin N → ℕ → ℕ → ℝ} (i : Fin N)
    (hW : ∀ j, Spec.Orthonormal (dims j) (rk j) (W j)) :
    gramMass dims rk V W i ≤ ((∏ j ∈ univ.erase i, rk j : ℕ) : ℝ) * (∑ idx ∈ Spec.Box dims, |V idx|) ^ 2 := by
  set gA := Spec.multiTTM dims (Spec.absArr V) (Spec.absMats W) {i} with hgA
  have hi : Spec.ttmShape dims rk {i} i = dims i := by simp [Spec.ttmShape]
  have h0 : ∀ z, 0 ≤ gA z := fun z => (abs_nonneg _).trans (abs_multiTTM_le dims V W {i} z)
  have e1 : gramMass dims rk V W i = ∑ z ∈ Spec.Box (update (Spec.ttmShape dims rk {i}) i 1), (∑ x ∈ range (dims i), gA (update z i x)) ^ 2 := by
    unfold gramMass
    simp only [sq, Finset.sum_mul_sum]
    symm
    rw [sum_comm]
    refine sum_congr rfl fun x hx => ?_
    rw [sum_comm]
    refine sum_congr rfl fun y _ => ?_
    rw [unfoldGram_eq _ _ i (by rw [hi]; exact mem_range.1 hx)]
  have hb : ∀ z ∈ Spec.Box (update (Spec.ttmShape dims rk {i}) i 1), ∑ x ∈ range (dims i), gA (update z i x) ≤ ∑ idx ∈ Spec.Box dims, |V idx| := by
    intro z hz
    have hz := Spec.mem_Box.1 hz
    have hle : ∀ x ∈ range (dims i), gA (update z i x) ≤ ∑ idx ∈ Spec.Box dims with idx i = x, |V idx| := by
      intro x hx
      rw [hgA]
      unfold Spec.multiTTM
      have hf : (Spec.Box dims).filter (fun idx => ∀ j ∈ ({i} : Finset (Fin N)), idx j = update z i x j) =
          (Spec.Box dims).filter fun idx => idx i = x := by
        apply Finset.filter_congr
        intro idx _
        simp
      rw [hf]
      refine sum_le_sum fun idx hidx => ?_
      have hidx := Spec.mem_Box.1 (mem_filter.1 hidx).1
      refine mul_le_of_le_one_right (abs_nonneg _) (Finset.prod_le_one (fun _ _ => abs_nonneg _) fun j hj => ?_)
      have hji : j ≠ i := by simpa using hj
      refine orth_entry_le (hW j) (hidx j) ?_
      rw [update_of_ne hji]
      have := hz j
      rw [update_of_ne hji] at this
      simpa [Spec.ttmShape, hji] using this
    refine (sum_le_sum hle).trans (le_of_eq ?_)
    exact Finset.sum_fiberwise_of_maps_to (fun idx hidx => mem_range.2 (Spec.mem_Box.1 hidx i)) _
  rw [e1]
  refine (sum_le_sum fun z hz => pow_le_pow_left₀ (sum_nonneg fun x _ => h0 _) (hb z hz) 2).trans (le_of_eq ?_)
  rw [sum_const, nsmul_eq_mul]
  congr 2
  unfold Spec.Box
  rw [Fintype.card_piFinset]
  rw [← Finset.mul_prod_erase _ _ (mem_univ i)]
  simp only [update_self, card_range, one_mul]
  refine prod_congr rfl fun j hj => ?_
  have hji : j ≠ i := by simpa using hj
  rw [update_of_ne hji]
  simp [Spec.ttmShape, hji]

/-- Loss per sweep. -/
noncomputable def sweepLoss (cG eta : ℝ) (dims rk : Fin N → ℕ) (V : (Fin N → ℕ) → ℝ) : ℝ :=
  4 * (cG * (1 + eta) - 1) * ((∑ i : Fin N, ∏ j ∈ univ.erase i, rk j : ℕ) : ℝ) * (∑ idx ∈ Spec.Box dims, |V idx|) ^ 2

theorem HooiRunNear.orth {cG eta : ℝ} (hc : 1 ≤ cG) (he : 0 ≤ eta) {k : Kern ℝ} (hk : SvdBack eta k) {dims rk : Fin N → ℕ} (hr : ∀ j, rk j ≤ dims j)
    {V : Tensor ℝ} {W W' : List (Tensor ℝ)} (hS : TuckShaped dims rk V W) (h : HooiRunNear cG k dims rk V W W' N) :
    AllOrtho dims rk W' ∧ (AllOrtho dims rk W → coreSq dims rk V (mats W) ≤ coreSq dims rk V (mats W') + sweepLoss cG eta dims rk (arr V N)) := by
  obtain ⟨st, a1, a2, a3⟩ := h
  have hsh : ∀ n ≤ N, TuckShaped dims rk V (st n) := by
    intro n
    induction n with
    | zero => intro _; rw [a1]; exact hS
    | succ n ih => intro hn; exact (a3 ⟨n, by omega⟩ (by simp only; omega)).shaped hk.shape hr (ih (by omega))
  have hb := fun (i : Fin N) => (a3 i i.2).best hc he hk hr (hsh i.1 (by omega)).count
  have ho : ∀ n ≤ N, ∀ j : Fin N, j.1 < n → Spec.Orthonormal (dims j) (rk j) (mats (st n) j) := by
    intro n
    induction n with
    | zero => intro _ j hj; omega
    | succ n ih =>
      intro hn j hj
      obtain ⟨b1, b2, _⟩ := hb ⟨n, by omega⟩
      by_cases e : j = ⟨n, by omega⟩
      · rw [e]; exact b2
      · have : j.1 ≠ n := fun h => e (Fin.ext h)
        rw [b1 j e]
        exact ih (by omega) j (by omega)
  have hfin := ho N le_rfl
  rw [a2] at hfin
  refine ⟨fun j => hfin j j.2, fun hW => ?_⟩
  have hall : ∀ n ≤ N, AllOrtho dims rk (st n) := by
    intro n
    induction n with
    | zero => intro _; rw [a1]; exact hW
    | succ n ih =>
      intro hn j
      obtain ⟨b1, b2, _⟩ := hb ⟨n, by omega⟩
      by_cases e : j = ⟨n, by omega⟩
      · rw [e]; exact b2
      · rw [b1 j e]
        exact ih (by omega) j
  have hd : 0 ≤ cG * (1 + eta) - 1 := by nlinarith
  set K : ℕ → ℝ := fun n => if h : n < N then ((∏ j ∈ univ.erase (⟨n, h⟩ : Fin N), rk j : ℕ) : ℝ) else 0 with hK
  have hstep : ∀ n ≤ N, coreSq dims rk V (mats (st 0)) ≤ coreSq dims rk V (mats (st n)) +
      4 * (cG * (1 + eta) - 1) * (∑ m ∈ range n, K m) * (∑ idx ∈ Spec.Box dims, |arr V N idx|) ^ 2 := by
    intro n
    induction n with
    | zero => intro _; simp
    | succ n ih =>
      intro hn
      have h1 := ih (by omega)
      obtain ⟨_, _, b3⟩ := hb ⟨n, by omega⟩
      have h2 := b3 (mats (st n) ⟨n, by omega⟩) (hall n (by omega) _)
      rw [update_eq_self] at h2
      have h3 := gramMass_le (arr V N) ⟨n, by omega⟩ (hall n (by omega))
      have h4 := mul_le_mul_of_nonneg_left h3 hd
      rw [sum_range_succ]
      have : K n = ((∏ j ∈ univ.erase (⟨n, by omega⟩ : Fin N), rk j : ℕ) : ℝ) := by
        simp only [hK]
        rw [dif_pos (show n < N by omega)]
      rw [this]
      simp only at h2
      nlinarith
  have hN := hstep N le_rfl
  rw [a1, a2] at hN
  refine hN.trans (le_of_eq ?_)
  unfold sweepLoss
  congr 3
  rw [sum_range, Nat.cast_sum]
  refine sum_congr rfl fun i _ => ?_
  simp [hK]

end Model
